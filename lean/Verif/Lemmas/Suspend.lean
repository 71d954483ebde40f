import Verif.Model.Suspend
import Verif.Props.Session

/-! Lemmas about replaying results into a session without a selection. -/

set_option linter.unusedSectionVars false
set_option linter.unusedSimpArgs false
set_option linter.unnecessarySeqFocus false

namespace Verif.Suspend

open Verif.Session
open Verif.DepMgr (eq_of_id)

variable {J I E R C W : Type} [DecidableEq J] [DecidableEq I] [DecidableEq E] [DecidableEq R]
  [DecidableEq C]

/-- Job, last result and history of the job with id `i`. -/
def view (st : List (I × JobState J E R)) (i : I) : Option (J × Result R × List (Result R)) :=
  (st.lookup i).map fun q => (q.job, q.result, q.history)

theorem core_view {st st' : List (I × JobState J E R)} (h : st.map core = st'.map core) :
    view st = view st' := by
  funext i
  have := core_lookup h i
  simp only [view]
  cases h1 : st.lookup i <;> cases h2 : st'.lookup i <;> simp_all [core]

theorem recompute_view (sem : Sem J I E R) (s : Session J I E R) :
    view (recompute sem s).1.states = view s.states := core_view (recompute_core sem s)

theorem recompute_empty (sem : Sem J I E R) {s : Session J I E R} (h : s.runList = []) :
    (recompute sem s).2 = none := by
  simp only [recompute, h, recomputeLoop]

/-- States are only added, and added states have no result. -/
def Grow (st st' : List (I × JobState J E R)) : Prop :=
  ∀ i, (∀ v, view st i = some v → view st' i = some v) ∧
    (view st i = none → ∀ v, view st' i = some v → v.2 = (.empty, []))

theorem Grow.refl (st : List (I × JobState J E R)) : Grow st st :=
  fun _ => ⟨fun _ h => h, fun h v hv => by rw [h] at hv; simp at hv⟩

theorem Grow.trans {a b c : List (I × JobState J E R)} (h1 : Grow a b) (h2 : Grow b c) :
    Grow a c := by
  intro i
  refine ⟨fun v h => (h2 i).1 v ((h1 i).1 v h), fun h v hv => ?_⟩
  cases hb : view b i with
  | none => exact (h2 i).2 hb v hv
  | some w =>
    have hw := (h1 i).2 h w hb
    have := (h2 i).1 w hb
    rw [this] at hv
    simp only [Option.some.injEq] at hv
    rw [← hv]; exact hw

theorem Grow.of_view {a b c : List (I × JobState J E R)} (h : Grow a b) (hv : view c = view b) :
    Grow a c := by
  intro i
  rw [hv]; exact h i

theorem grow_addOne (sem : Sem J I E R) (s : Session J I E R) (j : J) :
    Grow s.states (addOne sem s j).1.states ∧
    (∀ e, (addOne sem s j).2 = some e → ∃ a b, e = .duplicate a b) := by
  unfold addOne
  split
  · rename_i hn
    refine ⟨fun i => ⟨fun v h => ?_, fun h v hv => ?_⟩, by simp⟩
    · simp only [view, lookup_append_if] at h ⊢
      cases hl : s.states.lookup i with
      | none => simp [hl] at h
      | some q => simp [hl] at h; simp [h]
    · simp only [view, lookup_append_if] at h hv
      cases hl : s.states.lookup i with
      | some q => simp [hl] at h
      | none =>
        simp only [hl] at hv
        split at hv
        · simp only [Option.map_some, JobState.new, Option.some.injEq] at hv
          rw [← hv]
        · simp at hv
  · split
    · refine ⟨.refl _, ?_⟩
      intro e he
      simp only [Option.some.injEq] at he
      exact ⟨_, _, he.symm⟩
    · exact ⟨.refl _, by simp⟩

theorem grow_addMany (sem : Sem J I E R) : ∀ (js : List J) (s : Session J I E R),
    Grow s.states (addMany sem s js).1.states ∧
    (∀ e, (addMany sem s js).2 = some e → ∃ a b, e = .duplicate a b) := by
  intro js
  induction js with
  | nil => intro s; exact ⟨.refl _, by simp [addMany]⟩
  | cons j js ih =>
    intro s
    have h1 := grow_addOne sem s j
    simp only [addMany]
    split
    · rename_i s' x heq; rw [heq] at h1; exact h1
    · rename_i s' heq
      rw [heq] at h1
      exact ⟨h1.1.trans (ih s').1, (ih s').2⟩

theorem addMany_sel (sem : Sem J I E R) : ∀ (js : List J) (s : Session J I E R),
    (addMany sem s js).1.runList = s.runList ∧ (addMany sem s js).1.desired = s.desired ∧
    (addMany sem s js).1.mandatory = s.mandatory := by
  intro js
  induction js with
  | nil => intro s; exact ⟨rfl, rfl, rfl⟩
  | cons j js ih =>
    intro s
    have h1 : (addOne sem s j).1.runList = s.runList ∧ (addOne sem s j).1.desired = s.desired ∧
        (addOne sem s j).1.mandatory = s.mandatory := by
      unfold addOne
      split
      · exact ⟨rfl, rfl, rfl⟩
      · split <;> exact ⟨rfl, rfl, rfl⟩
    simp only [addMany]
    split
    · rename_i s' x heq; rw [heq] at h1; exact h1
    · rename_i s' heq
      rw [heq] at h1
      obtain ⟨a, b, c⟩ := ih s'
      exact ⟨a.trans h1.1, b.trans h1.2.1, c.trans h1.2.2⟩

theorem addUnit_sel (sem : Sem J I E R) (s : Session J I E R) (j : J) :
    (addUnit sem s j).1.runList = s.runList ∧ (addUnit sem s j).1.desired = s.desired ∧
    (addUnit sem s j).1.mandatory = s.mandatory := addMany_sel sem (j :: sem.family j) s

theorem addGenerated_sel (sem : Sem J I E R) : ∀ (js : List J) (s : Session J I E R),
    (addGenerated sem s js).1.runList = s.runList ∧ (addGenerated sem s js).1.desired = s.desired ∧
    (addGenerated sem s js).1.mandatory = s.mandatory := by
  intro js
  induction js with
  | nil => intro s; exact ⟨rfl, rfl, rfl⟩
  | cons j js ih =>
    intro s
    have h1 := addUnit_sel sem s j
    simp only [addGenerated]
    split
    · rename_i s' x heq; rw [heq] at h1; exact h1
    · rename_i s' heq
      rw [heq] at h1
      obtain ⟨a, b, c⟩ := ih s'
      exact ⟨a.trans h1.1, b.trans h1.2.1, c.trans h1.2.2⟩

theorem observeResult_sel (sem : Sem J I E R) (s : Session J I E R) (j : J) (r : Result R) :
    (observeResult sem s j r).1.runList = s.runList ∧
    (observeResult sem s j r).1.desired = s.desired ∧
    (observeResult sem s j r).1.mandatory = s.mandatory := by
  unfold observeResult
  split
  · exact ⟨rfl, rfl, rfl⟩
  · have hs : ∀ t : Session J I E R, (storeResource sem t j r).runList = t.runList ∧
        (storeResource sem t j r).desired = t.desired ∧
        (storeResource sem t j r).mandatory = t.mandatory := by
      intro t; unfold storeResource; split <;> exact ⟨rfl, rfl, rfl⟩
    simp only
    split
    · split
      · exact hs _
      · obtain ⟨a, b, c⟩ := addGenerated_sel sem (sem.gen j (((storeResource sem
            { s with states := modify s.states (sem.id j) (setResult r) } j r).resources.lookup
              (sem.id j)).getD [])) (storeResource sem
            { s with states := modify s.states (sem.id j) (setResult r) } j r)
        obtain ⟨x, y, z⟩ := hs { s with states := modify s.states (sem.id j) (setResult r) }
        exact ⟨a.trans x, b.trans y, c.trans z⟩
    · exact ⟨rfl, rfl, rfl⟩

theorem updateResult_sel (sem : Sem J I E R) (s : Session J I E R) (j : J) (r : Result R) :
    (updateResult sem s j r).1.runList = s.runList ∧
    (updateResult sem s j r).1.desired = s.desired ∧
    (updateResult sem s j r).1.mandatory = s.mandatory := by
  have h := observeResult_sel sem s j r
  unfold updateResult
  split
  · rename_i heq; rw [heq] at h; exact h
  · rename_i heq; rw [heq] at h; exact h

theorem grow_addUnit (sem : Sem J I E R) (s : Session J I E R) (j : J) :
    Grow s.states (addUnit sem s j).1.states ∧
    (s.runList = [] → ∀ e, (addUnit sem s j).2 = some e → ∃ a b, e = .duplicate a b) := by
  obtain ⟨h1, h2⟩ := grow_addMany sem (j :: sem.family j) s
  refine ⟨h1.of_view (recompute_view sem _), ?_⟩
  intro hr e he
  have : (recompute sem (addMany sem s (j :: sem.family j)).1).2 = none :=
    recompute_empty sem (by rw [(addMany_sel sem _ s).1, hr])
  simp only [addUnit, this] at he
  exact h2 e he

theorem grow_addGenerated (sem : Sem J I E R) : ∀ (js : List J) (s : Session J I E R),
    Grow s.states (addGenerated sem s js).1.states ∧
    (s.runList = [] → ∀ e, (addGenerated sem s js).2 = some e → ∃ a b, e = .duplicate a b) := by
  intro js
  induction js with
  | nil => intro s; exact ⟨.refl _, by simp [addGenerated]⟩
  | cons j js ih =>
    intro s
    have h1 := grow_addUnit sem s j
    have h2 := (addUnit_sel sem s j).1
    simp only [addGenerated]
    split
    · rename_i s' x heq; rw [heq] at h1; exact h1
    · rename_i s' heq
      rw [heq] at h1 h2
      exact ⟨h1.1.trans (ih s').1, fun hr => (ih s').2 (h2.trans hr)⟩

/-- Effect of one assignment to `result` on last result and history. -/
def setR (p : Result R × List (Result R)) (r : Result R) : Result R × List (Result R) :=
  if r = p.1 then p else (r, if r.isHollow then p.2 else p.2 ++ [r])

theorem view_setResult (q : JobState J E R) (r : Result R) :
    ((setResult r q).job, (setResult r q).result, (setResult r q).history) =
      (q.job, setR (q.result, q.history) r) := by
  unfold setResult setR
  split <;> rfl

/-- `update_job_result`: the job gets its result, other jobs keep theirs. -/
theorem updateResult_view (sem : Sem J I E R) {s : Session J I E R} {j : J} (r : Result R)
    {k : J} {p : Result R × List (Result R)} (hv : view s.states (sem.id j) = some (k, p)) :
    view (updateResult sem s j r).1.states (sem.id j) = some (k, setR p r) ∧
    (∀ i, i ≠ sem.id j →
      (∀ v, view s.states i = some v → view (updateResult sem s j r).1.states i = some v) ∧
      (view s.states i = none → ∀ v, view (updateResult sem s j r).1.states i = some v →
        v.2 = (.empty, []))) ∧
    (s.runList = [] → ∀ e, (updateResult sem s j r).2 = some e → ∃ a b, e = .duplicate a b) := by
  obtain ⟨q, hq⟩ : ∃ q, s.states.lookup (sem.id j) = some q := by
    cases hl : s.states.lookup (sem.id j) with
    | none => simp [view, hl] at hv
    | some q => exact ⟨q, rfl⟩
  simp only [view, hq, Option.map_some, Option.some.injEq, Prod.mk.injEq] at hv
  obtain ⟨hk, hp⟩ := hv
  have hmod : view (modify s.states (sem.id j) (setResult r)) (sem.id j) = some (k, setR p r) := by
    simp only [view, lookup_modify, if_true, hq, Option.map_some, view_setResult, hk, hp]
  have hoth : ∀ i, i ≠ sem.id j →
      view (modify s.states (sem.id j) (setResult r)) i = view s.states i := by
    intro i hi
    simp only [view, lookup_modify, hi, if_false]
  have hobs : Grow (modify s.states (sem.id j) (setResult r)) (observeResult sem s j r).1.states ∧
      (s.runList = [] → ∀ e, (observeResult sem s j r).2 = some e → ∃ a b, e = .duplicate a b) := by
    unfold observeResult
    rw [if_neg (by simp [hq])]
    have hs : ∀ t : Session J I E R, (storeResource sem t j r).states = t.states ∧
        (storeResource sem t j r).runList = t.runList := by
      intro t; unfold storeResource; split <;> exact ⟨rfl, rfl⟩
    simp only
    split
    · split
      · refine ⟨?_, by simp⟩
        rw [(hs _).1]; exact .refl _
      · obtain ⟨g1, g2⟩ := grow_addGenerated sem (sem.gen j (((storeResource sem
            { s with states := modify s.states (sem.id j) (setResult r) } j r).resources.lookup
              (sem.id j)).getD [])) (storeResource sem
            { s with states := modify s.states (sem.id j) (setResult r) } j r)
        rw [(hs _).1, (hs _).2] at *
        exact ⟨g1, g2⟩
    · exact ⟨.refl _, by simp⟩
  have hview : view (updateResult sem s j r).1.states = view (observeResult sem s j r).1.states := by
    unfold updateResult
    split
    · rename_i heq; rw [heq]
    · rename_i heq; rw [heq]; exact recompute_view sem _
  obtain ⟨g, ge⟩ := hobs
  refine ⟨?_, ?_, ?_⟩
  · rw [hview]; exact (g _).1 _ hmod
  · intro i hi
    rw [hview]
    have := g i
    rw [hoth i hi] at this
    exact this
  · intro hr e he
    unfold updateResult at he
    split at he
    · rename_i s' x heq
      have := ge hr x (by rw [heq])
      simp only [Option.some.injEq] at he
      rw [← he]; exact this
    · rename_i s' heq
      have hs' : s'.runList = [] := by
        have := (observeResult_sel sem s j r).1
        rw [heq] at this
        exact this.trans hr
      rw [recompute_empty sem hs'] at he
      simp at he

/-- The state of processing: the session is reachable and has no selection, the ids in `P` hold
exactly the results of the document, the other jobs hold none. -/
structure Proc (f : Fmt J R C W) (sem : Sem J I E R) (d : Doc I C W) (P : I → Prop)
    (s : Session J I E R) : Prop where
  reach : Reachable sem s
  book : Book sem s
  run : s.runList = []
  sel : s.desired = [] ∧ s.mandatory = []
  done : ∀ i, P i → ∃ j p c, view s.states i = some (j, p) ∧ d.jobs.lookup i = some c ∧
    f.cks j = c ∧
    ((d.results.lookup i = none ∧ p = (.empty, [])) ∨
      ∃ ws rs, d.results.lookup i = some ws ∧ readAll f ws = some rs ∧
        p = rs.foldl setR (.empty, []))
  undone : ∀ i v, ¬ P i → view s.states i = some v → v.2 = (.empty, [])

theorem addBase_proc {f : Fmt J R C W} {sem : Sem J I E R} {d : Doc I C W} : ∀ (js : List J)
    {s s' : Session J I E R}, Proc f sem d (fun _ => False) s → addBase sem js s = .ok s' →
    Proc f sem d (fun _ => False) s' ∧ (∀ k ∈ s.jobs, k ∈ s'.jobs) := by
  intro js
  induction js with
  | nil =>
    intro s s' h hs
    simp only [addBase, Except.ok.injEq] at hs
    subst hs; exact ⟨h, fun k hk => hk⟩
  | cons j js ih =>
    intro s s' h hs
    simp only [addBase] at hs
    split at hs
    · rename_i s1 heq
      have hg := (grow_addUnit sem s j).1
      have hsel := addUnit_sel sem s j
      have hb := h.book.addUnit j
      rw [heq] at hg hsel hb
      obtain ⟨h1, h2⟩ := ih (s := s1) ⟨.step (op := .add j) h.reach trivial heq, hb.1,
        hsel.1.trans h.run, ⟨hsel.2.1.trans h.sel.1, hsel.2.2.trans h.sel.2⟩, by simp, by
          intro i v _ hv
          cases ho : view s.states i with
          | none => exact (hg i).2 ho v hv
          | some w =>
            have h1 := h.undone i w (by simp) ho
            have h2 := (hg i).1 w ho
            rw [h2] at hv
            simp only [Option.some.injEq] at hv
            rw [← hv]; exact h1⟩ hs
      exact ⟨h1, fun k hk => h2 k (hb.2.2 k hk)⟩
    · simp at hs

/-- Replaying results of one job. -/
theorem replay_spec {sem : Sem J I E R} {j : J} : ∀ (rs : List (Result R)) {s : Session J I E R}
    {p : Result R × List (Result R)},
    Reachable sem s → Book sem s → s.runList = [] → j ∈ s.jobs →
    view s.states (sem.id j) = some (j, p) →
    (∀ s', replay sem j rs s ≠ .keyError s') ∧
    ∀ s', replay sem j rs s = .done s' →
      Reachable sem s' ∧ Book sem s' ∧ s'.runList = s.runList ∧ s'.desired = s.desired ∧
      s'.mandatory = s.mandatory ∧ (∀ k ∈ s.jobs, k ∈ s'.jobs) ∧
      view s'.states (sem.id j) = some (j, rs.foldl setR p) ∧
      (∀ i, i ≠ sem.id j →
        (∀ v, view s.states i = some v → view s'.states i = some v) ∧
        (view s.states i = none → ∀ v, view s'.states i = some v → v.2 = (.empty, []))) := by
  intro rs
  induction rs with
  | nil =>
    intro s p hre hb hr hj hv
    refine ⟨by simp [replay], ?_⟩
    intro s' h
    simp only [replay, Step.done.injEq] at h
    subst h
    exact ⟨hre, hb, rfl, rfl, rfl, fun k hk => hk, hv,
      fun i _ => ⟨fun v h => h, fun h v hv => by rw [h] at hv; simp at hv⟩⟩
  | cons r rs ih =>
    intro s p hre hb hr hj hv
    obtain ⟨u1, u2, u3⟩ := updateResult_view sem r hv
    have hsel := updateResult_sel sem s j r
    have hb1 := hb.updateResult j r
    simp only [replay]
    split
    · rename_i s1 heq
      have hjobs : ∀ k ∈ s.jobs, k ∈ s1.jobs := by
        have h2 := (hb.observeResult j r).2.2
        have h3 := heq
        unfold updateResult at h3
        split at h3
        · simp at h3
        · rename_i s2 heq2
          rw [heq2] at h2
          have : s1.jobs = s2.jobs := by
            have := congrArg (fun x => x.1.jobs) h3
            exact this.symm
          rw [this]; exact h2
      rw [heq] at u1 u2 hsel hb1
      obtain ⟨i1, i2⟩ := ih (s := s1) (.step (op := .result j r) hre (fun _ => hj) heq) hb1
        (hsel.1.trans hr) (hjobs j hj) u1
      refine ⟨i1, ?_⟩
      intro s' h
      obtain ⟨a, b, c, dd, e, g, k, l⟩ := i2 s' h
      refine ⟨a, b, c.trans hsel.1, dd.trans hsel.2.1, e.trans hsel.2.2,
        fun x hx => g x (hjobs x hx), k, ?_⟩
      intro i hi
      refine ⟨fun v hv => (l i hi).1 v ((u2 i hi).1 v hv), fun hn v hv => ?_⟩
      cases ho : view s1.states i with
      | none => exact (l i hi).2 ho v hv
      | some w =>
        have h1 := (u2 i hi).2 hn w ho
        have h2 := (l i hi).1 w ho
        rw [h2] at hv
        simp only [Option.some.injEq] at hv
        rw [← hv]; exact h1
    · rename_i s1 i heq
      exfalso
      obtain ⟨a, b, hab⟩ := u3 hr (.keyError i) (by rw [heq])
      simp at hab
    · exact ⟨by simp, by simp⟩

theorem processJob_spec {f : Fmt J R C W} {sem : Sem J I E R} {d : Doc I C W} {P : I → Prop}
    {s : Session J I E R} (h : Proc f sem d P s) {i : I} (hi : ¬ P i) :
    (∀ s', processJob f sem d s i = .keyError s' → s' = s) ∧
    (∀ s', processJob f sem d s i = .done s' →
      Proc f sem d (fun k => P k ∨ k = i) s' ∧ ∀ k ∈ s.jobs, k ∈ s'.jobs) := by
  unfold processJob
  cases hc : d.jobs.lookup i with
  | none => simp
  | some c =>
    cases hq : s.states.lookup i with
    | none => simp
    | some q =>
      simp only
      obtain ⟨hqj, hqi⟩ := h.book.lookup_job hq
      have hv : view s.states i = some (q.job, q.result, q.history) := by simp [view, hq]
      have hemp := h.undone i _ hi hv
      by_cases hck : f.cks q.job = c
      · rw [if_neg (by simpa using hck), hqi]
        cases hr : d.results.lookup i with
        | none =>
          refine ⟨by simp, ?_⟩
          intro s' hs'
          simp only [Step.done.injEq] at hs'
          subst hs'
          refine ⟨⟨h.reach, h.book, h.run, h.sel, ?_, ?_⟩, fun k hk => hk⟩
          · rintro k (hk | rfl)
            · exact h.done k hk
            · exact ⟨_, _, c, hv, hc, hck, .inl ⟨hr, hemp⟩⟩
          · intro k v hk hkv
            exact h.undone k v (fun x => hk (.inl x)) hkv
        | some ws =>
          simp only
          cases hrs : readAll f ws with
          | none => simp
          | some rs =>
            simp only
            obtain ⟨r1, r2⟩ := replay_spec rs (p := (q.result, q.history)) h.reach h.book h.run hqj
              (by rw [hqi]; exact hv)
            refine ⟨fun s' hs' => absurd hs' (r1 s'), ?_⟩
            intro s' hs'
            obtain ⟨a, b, c1, c2, c3, c4, c5, c6⟩ := r2 s' hs'
            rw [hqi] at c5 c6
            refine ⟨⟨a, b, c1.trans h.run, ⟨c2.trans h.sel.1, c3.trans h.sel.2⟩, ?_, ?_⟩, c4⟩
            · intro k hk
              by_cases hki : k = i
              · subst hki
                have : (q.result, q.history) = (Result.empty, []) := hemp
                rw [this] at c5
                exact ⟨_, _, c, c5, hc, hck, .inr ⟨ws, rs, hr, hrs, rfl⟩⟩
              · obtain ⟨j, p, c', h1, h2⟩ := h.done k (by
                  rcases hk with hk | hk
                  · exact hk
                  · exact absurd hk hki)
                exact ⟨j, p, c', (c6 k hki).1 _ h1, h2⟩
            · intro k v hk hkv
              simp only [not_or] at hk
              cases ho : view s.states k with
              | none => exact (c6 k hk.2).2 ho v hkv
              | some w =>
                have h1 := h.undone k w hk.1 ho
                have h2 := (c6 k hk.2).1 w ho
                rw [h2] at hkv
                simp only [Option.some.injEq] at hkv
                rw [← hkv]; exact h1
      · rw [if_pos (by simpa using hck)]
        simp

theorem pass_spec {f : Fmt J R C W} {sem : Sem J I E R} {d : Doc I C W} : ∀ (is : List I)
    {P : I → Prop} {s s' : Session J I E R} {left : List I}, Proc f sem d P s → is.Nodup →
    (∀ i ∈ is, ¬ P i) → pass f sem d is s = .ok (s', left) →
    Proc f sem d (fun k => P k ∨ (k ∈ is ∧ k ∉ left)) s' ∧ left.Sublist is ∧
    (∀ k ∈ s.jobs, k ∈ s'.jobs) := by
  intro is
  induction is with
  | nil =>
    intro P s s' left h _ _ hp
    simp only [pass, Except.ok.injEq, Prod.mk.injEq] at hp
    obtain ⟨rfl, rfl⟩ := hp
    exact ⟨by simpa using h, .refl _, fun k hk => hk⟩
  | cons i is ih =>
    intro P s s' left h hnd hP hp
    simp only [List.nodup_cons] at hnd
    obtain ⟨p1, p2⟩ := processJob_spec h (hP i (by simp))
    simp only [pass] at hp
    split at hp
    · simp at hp
    · rename_i s1 heq
      obtain ⟨hpr, hsub⟩ := p2 s1 heq
      obtain ⟨a, b, c⟩ := ih hpr hnd.2 (by
        intro k hk hkp
        rcases hkp with hkp | rfl
        · exact hP k (by simp [hk]) hkp
        · exact hnd.1 hk) hp
      have hil : i ∉ left := fun hc => hnd.1 (b.subset hc)
      refine ⟨?_, b.cons _, fun k hk => c k (hsub k hk)⟩
      have hP' : (fun k => (P k ∨ k = i) ∨ k ∈ is ∧ k ∉ left) =
          (fun k => P k ∨ (k ∈ i :: is ∧ k ∉ left)) := by
        funext k
        simp only [List.mem_cons, eq_iff_iff]
        constructor
        · rintro ((hk | rfl) | ⟨hk1, hk2⟩)
          · exact .inl hk
          · exact .inr ⟨.inl rfl, hil⟩
          · exact .inr ⟨.inr hk1, hk2⟩
        · rintro (hk | ⟨rfl | hk1, hk2⟩)
          · exact .inl (.inl hk)
          · exact .inl (.inr rfl)
          · exact .inr ⟨hk1, hk2⟩
      rw [← hP']; exact a
    · rename_i s1 heq
      have := p1 s1 heq
      subst this
      split at hp
      · simp at hp
      · rename_i s2 left2 heq2
        simp only [Except.ok.injEq, Prod.mk.injEq] at hp
        obtain ⟨rfl, rfl⟩ := hp
        obtain ⟨a, b, c⟩ := ih h hnd.2 (fun k hk => hP k (by simp [hk])) heq2
        refine ⟨?_, b.cons_cons _, c⟩
        have hP' : (fun k => P k ∨ (k ∈ is ∧ k ∉ left2)) =
            (fun k => P k ∨ (k ∈ i :: is ∧ k ∉ i :: left2)) := by
          funext k
          simp only [List.mem_cons, eq_iff_iff, not_or]
          constructor
          · rintro (hk | ⟨hk1, hk2⟩)
            · exact .inl hk
            · exact .inr ⟨.inr hk1, fun hki => hnd.1 (hki ▸ hk1), hk2⟩
          · rintro (hk | ⟨rfl | hk1, hk2, hk3⟩)
            · exact .inl hk
            · exact absurd rfl hk2
            · exact .inr ⟨hk1, hk3⟩
        rw [← hP']; exact a

theorem rounds_spec {f : Fmt J R C W} {sem : Sem J I E R} {d : Doc I C W} : ∀ (n : Nat)
    (left : List I) {P : I → Prop} {s s' : Session J I E R}, Proc f sem d P s → left.Nodup →
    (∀ i ∈ left, ¬ P i) → rounds f sem d n left s = .ok s' →
    Proc f sem d (fun k => P k ∨ k ∈ left) s' ∧ (∀ k ∈ s.jobs, k ∈ s'.jobs) := by
  intro n
  induction n with
  | zero =>
    intro left P s s' h hnd hP hr
    cases left with
    | nil =>
      simp only [rounds, Except.ok.injEq] at hr
      subst hr
      exact ⟨by simpa using h, fun k hk => hk⟩
    | cons i is => simp [rounds] at hr
  | succ n ih =>
    intro left P s s' h hnd hP hr
    cases left with
    | nil =>
      simp only [rounds, Except.ok.injEq] at hr
      subst hr
      exact ⟨by simpa using h, fun k hk => hk⟩
    | cons i is =>
      simp only [rounds] at hr
      split at hr
      · simp at hr
      · rename_i s1 left1 heq
        split at hr
        · obtain ⟨a, b, c⟩ := pass_spec _ h hnd hP heq
          obtain ⟨e, g⟩ := ih left1 a (hnd.sublist b) (by
            intro k hk hkp
            rcases hkp with hkp | ⟨_, hkp⟩
            · exact hP k (b.subset hk) hkp
            · exact hkp hk) hr
          refine ⟨?_, fun k hk => g k (c k hk)⟩
          have hP' : (fun k => (P k ∨ (k ∈ i :: is ∧ k ∉ left1)) ∨ k ∈ left1) =
              (fun k => P k ∨ k ∈ i :: is) := by
            funext k
            simp only [eq_iff_iff]
            constructor
            · rintro ((hk | ⟨hk1, _⟩) | hk)
              · exact .inl hk
              · exact .inr hk1
              · exact .inr (b.subset hk)
            · rintro (hk | hk)
              · exact .inl (.inl hk)
              · by_cases hkl : k ∈ left1
                · exact .inr hkl
                · exact .inl (.inr ⟨hk, hkl⟩)
          rw [← hP']; exact e
        · simp at hr

/-- `sorted(set(...))`: the same elements, each once. -/
def SortOK (sortIds : List I → List I) : Prop :=
  ∀ l, (sortIds l).Nodup ∧ ∀ i, i ∈ sortIds l ↔ i ∈ l

theorem construct_proc {f : Fmt J R C W} {sem : Sem J I E R} {d : Doc I C W} {base : List J}
    {s : Session J I E R} (h : construct sem base = .ok s) : Proc f sem d (fun _ => False) s := by
  have hl := construct_live h
  refine ⟨.start h, hl.book, ?_, ?_, by simp, ?_⟩
  · unfold construct at h
    split at h
    · simp at h
    · simp only [Except.ok.injEq] at h; rw [← h]
  · unfold construct at h
    split at h
    · simp at h
    · simp only [Except.ok.injEq] at h; rw [← h]; exact ⟨rfl, rfl⟩
  · intro i v _ hv
    unfold construct at h
    split at h
    · simp at h
    · rename_i jobs _
      simp only [Except.ok.injEq] at h
      rw [← h] at hv
      simp only [view] at hv
      cases hq : (jobs.map fun j => (sem.id j, (JobState.new j : JobState J E R))).lookup i with
      | none => rw [hq] at hv; simp at hv
      | some q =>
        have := lookup_mem hq
        obtain ⟨j, _, hj⟩ := List.mem_map.mp this
        simp only [Prod.mk.injEq] at hj
        rw [hq] at hv
        simp only [Option.map_some, Option.some.injEq] at hv
        rw [← hv, ← hj.2]
        rfl

/-- After all results were restored every id of the document is processed. -/
theorem restoreResults_spec {f : Fmt J R C W} {sem : Sem J I E R} {sortIds : List I → List I}
    (hsort : SortOK sortIds) {base : List J} {d : Doc I C W} {s0 s1 : Session J I E R}
    (h0 : construct sem base = .ok s0)
    (h1 : restoreResults f sem sortIds base d s0 = .ok s1) :
    Proc f sem d (fun i => i ∈ d.jobs.map Prod.fst ++ d.results.map Prod.fst) s1 := by
  unfold restoreResults at h1
  split at h1
  · simp at h1
  · rename_i sa ha
    obtain ⟨pa, _⟩ := addBase_proc base (construct_proc (f := f) (d := d) h0) ha
    split at h1
    · simp at h1
    · rename_i sb left hb
      obtain ⟨pb, sub, _⟩ := pass_spec _ pa (hsort _).1 (by simp) hb
      obtain ⟨pc, _⟩ := rounds_spec _ left pb ((hsort _).1.sublist sub) (by
        intro i hi hk
        simp only [false_or] at hk
        exact hk.2 hi) h1
      have hP' : (fun k => (False ∨ (k ∈ sortIds (d.jobs.map Prod.fst ++ d.results.map Prod.fst) ∧
            k ∉ left)) ∨ k ∈ left) =
          (fun i => i ∈ d.jobs.map Prod.fst ++ d.results.map Prod.fst) := by
        funext k
        simp only [false_or, eq_iff_iff]
        rw [← (hsort (d.jobs.map Prod.fst ++ d.results.map Prod.fst)).2 k]
        constructor
        · rintro (hk | hk)
          · exact hk.1
          · exact sub.subset hk
        · intro hk
          by_cases hkl : k ∈ left
          · exact .inr hkl
          · exact .inl ⟨hk, hkl⟩
      rw [← hP']; exact pc

/-- The leftover loop always ends: it never runs out of rounds. -/
theorem rounds_terminate {f : Fmt J R C W} {sem : Sem J I E R} {d : Doc I C W} : ∀ (n : Nat)
    (left : List I) (s : Session J I E R), left.length ≤ n →
    rounds f sem d n left s ≠ .error .diverges ∨
      ∃ t l, pass f sem d l t = .error .diverges := by
  intro n
  induction n with
  | zero =>
    intro left s h
    have : left = [] := List.length_eq_zero_iff.mp (by omega)
    subst this
    left; simp [rounds]
  | succ n ih =>
    intro left s h
    cases left with
    | nil => left; simp [rounds]
    | cons i is =>
      simp only [rounds]
      cases hp : pass f sem d (i :: is) s with
      | error e =>
        simp only
        by_cases he : e = .diverges
        · subst he; exact .inr ⟨s, _, hp⟩
        · left; simpa using he
      | ok p =>
        obtain ⟨s', left'⟩ := p
        simp only
        split
        · rename_i hlt
          exact ih left' s' (by simp at h hlt; omega)
        · left; simp

theorem processJob_not_diverges {f : Fmt J R C W} {sem : Sem J I E R} {d : Doc I C W}
    {s : Session J I E R} {i : I} : processJob f sem d s i ≠ .raised .diverges := by
  have hr : ∀ (rs : List (Result R)) (j : J) (s : Session J I E R),
      replay sem j rs s ≠ .raised .diverges := by
    intro rs
    induction rs with
    | nil => intro j s; simp [replay]
    | cons r rs ih =>
      intro j s
      simp only [replay]
      split
      · exact ih _ _
      · simp
      · simp
  unfold processJob
  split
  · simp
  · split
    · simp
    · split
      · simp
      · split
        · simp
        · split
          · simp
          · exact hr _ _ _

theorem pass_not_diverges {f : Fmt J R C W} {sem : Sem J I E R} {d : Doc I C W} : ∀ (is : List I)
    (s : Session J I E R), pass f sem d is s ≠ .error .diverges := by
  intro is
  induction is with
  | nil => intro s; simp [pass]
  | cons i is ih =>
    intro s
    simp only [pass]
    split
    · rename_i e heq
      intro hc
      simp only [Except.error.injEq] at hc
      subst hc
      exact processJob_not_diverges heq
    · exact ih _
    · split
      · rename_i e heq
        intro hc
        simp only [Except.error.injEq] at hc
        subst hc
        exact ih _ heq
      · simp

end Verif.Suspend
