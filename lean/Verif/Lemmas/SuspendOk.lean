import Verif.Lemmas.Suspend
import Verif.Lemmas.DepMgrCongr

/-!
# Resuming returns normally
-/

set_option linter.unusedSectionVars false
set_option linter.unusedSimpArgs false

namespace Verif.Suspend

open Verif.Session
open Verif.DepMgr (eq_of_id)

variable {J I E R C W : Type} [DecidableEq J] [DecidableEq I] [DecidableEq E] [DecidableEq R]
  [DecidableEq C]

/-- The jobs that templates make when result `r` of job `j` arrives. -/
def genOf (sem : Sem J I E R) (j : J) (r : Result R) : List J :=
  if sem.isResource j = true ∧ r.outcome ≠ .none then
    sem.gen j (if r.records.isEmpty then [sem.blank] else r.records)
  else []

/-- Jobs with their siblings. -/
def withFamily (sem : Sem J I E R) (l : List J) : List J := l.flatMap fun j => j :: sem.family j

theorem addMany_in {sem : Sem J I E R} {U : List J} (hU : (U.map sem.id).Nodup) : ∀ (js : List J)
    {s : Session J I E R}, Book sem s → (∀ k ∈ s.jobs, k ∈ U) → (∀ k ∈ js, k ∈ U) →
    ∃ s', addMany sem s js = (s', none) ∧ (∀ k ∈ s'.jobs, k ∈ U) ∧ (∀ k ∈ s.jobs, k ∈ s'.jobs) ∧
      (∀ k ∈ js, k ∈ s'.jobs) := by
  intro js
  induction js with
  | nil => intro s _ hs _; exact ⟨s, rfl, hs, fun k hk => hk, by simp⟩
  | cons j js ih =>
    intro s hb hs hjs
    have hj := hjs j (by simp)
    obtain ⟨s1, h1, h1U, h1s, h1j⟩ : ∃ s1, addOne sem s j = (s1, none) ∧ (∀ k ∈ s1.jobs, k ∈ U) ∧
        (∀ k ∈ s.jobs, k ∈ s1.jobs) ∧ j ∈ s1.jobs := by
      unfold addOne
      cases hq : s.states.lookup (sem.id j) with
      | none =>
        refine ⟨_, rfl, ?_, fun k hk => by simp [hk], by simp⟩
        intro k hk
        rcases List.mem_append.mp hk with hk | hk
        · exact hs k hk
        · rw [List.mem_singleton] at hk; rw [hk]; exact hj
      | some q =>
        obtain ⟨a, b⟩ := hb.lookup_job hq
        have : j = q.job := eq_of_id (g := sem.graph) hU hj (hs _ a) b.symm
        simp only
        rw [if_neg (by simp [this])]
        exact ⟨s, rfl, hs, fun k hk => hk, by rw [this]; exact a⟩
    have hb1 : Book sem s1 := by have := (hb.addOne j).1; rwa [h1] at this
    obtain ⟨s2, h2, h2U, h2s, h2j⟩ := ih hb1 h1U (fun k hk => hjs k (by simp [hk]))
    refine ⟨s2, by simp only [addMany, h1, h2], h2U, fun k hk => h2s k (h1s k hk), ?_⟩
    intro k hk
    rcases List.mem_cons.mp hk with rfl | hk
    · exact h2s _ h1j
    · exact h2j k hk

theorem addUnit_in {sem : Sem J I E R} {U : List J} (hU : (U.map sem.id).Nodup)
    (hF : ∀ j ∈ U, ∀ k ∈ sem.family j, k ∈ U) {s : Session J I E R} (hb : Book sem s)
    (hr : s.runList = []) (hs : ∀ k ∈ s.jobs, k ∈ U) {j : J} (hj : j ∈ U) :
    ∃ s', addUnit sem s j = (s', none) ∧ Book sem s' ∧ s'.runList = [] ∧ (∀ k ∈ s'.jobs, k ∈ U) ∧
      (∀ k ∈ s.jobs, k ∈ s'.jobs) ∧ (∀ k ∈ j :: sem.family j, k ∈ s'.jobs) := by
  obtain ⟨s1, h1, h1U, h1s, h1j⟩ := addMany_in hU (j :: sem.family j) hb hs (by
    intro k hk
    rcases List.mem_cons.mp hk with rfl | hk
    · exact hj
    · exact hF j hj k hk)
  have hb1 := hb.addUnit j
  have hr1 : s1.runList = [] := by
    have := (addMany_sel sem (j :: sem.family j) s).1
    rw [h1] at this
    exact this.trans hr
  have he : addUnit sem s j = ((recompute sem s1).1, none) := by
    simp only [addUnit, h1, recompute_empty sem hr1]
  rw [he] at hb1
  exact ⟨_, he, hb1.1, hb1.2.1.trans hr, h1U, h1s, h1j⟩

theorem addGenerated_in {sem : Sem J I E R} {U : List J} (hU : (U.map sem.id).Nodup)
    (hF : ∀ j ∈ U, ∀ k ∈ sem.family j, k ∈ U) : ∀ (js : List J) {s : Session J I E R},
    Book sem s → s.runList = [] → (∀ k ∈ s.jobs, k ∈ U) → (∀ k ∈ js, k ∈ U) →
    ∃ s', addGenerated sem s js = (s', none) ∧ Book sem s' ∧ s'.runList = [] ∧
      (∀ k ∈ s'.jobs, k ∈ U) ∧ (∀ k ∈ s.jobs, k ∈ s'.jobs) ∧
      (∀ k ∈ withFamily sem js, k ∈ s'.jobs) := by
  intro js
  induction js with
  | nil => intro s hb hr hs _; exact ⟨s, rfl, hb, hr, hs, fun k hk => hk, by simp [withFamily]⟩
  | cons j js ih =>
    intro s hb hr hs hjs
    obtain ⟨s1, h1, b1, r1, u1, m1, f1⟩ := addUnit_in hU hF hb hr hs (hjs j (by simp))
    obtain ⟨s2, h2, b2, r2, u2, m2, f2⟩ := ih b1 r1 u1 (fun k hk => hjs k (by simp [hk]))
    refine ⟨s2, by simp only [addGenerated, h1, h2], b2, r2, u2, fun k hk => m2 k (m1 k hk), ?_⟩
    intro k hk
    simp only [withFamily, List.flatMap_cons, List.mem_append] at hk
    rcases hk with hk | hk
    · exact m2 k (f1 k hk)
    · exact f2 k hk

theorem addBase_in {sem : Sem J I E R} {U : List J} (hU : (U.map sem.id).Nodup)
    (hF : ∀ j ∈ U, ∀ k ∈ sem.family j, k ∈ U) : ∀ (js : List J) {s : Session J I E R},
    Book sem s → s.runList = [] → (∀ k ∈ s.jobs, k ∈ U) → (∀ k ∈ js, k ∈ U) →
    ∃ s', addBase sem js s = .ok s' ∧ Book sem s' ∧ s'.runList = [] ∧
      (∀ k ∈ s'.jobs, k ∈ U) ∧ (∀ k ∈ s.jobs, k ∈ s'.jobs) ∧
      (∀ k ∈ withFamily sem js, k ∈ s'.jobs) := by
  intro js
  induction js with
  | nil => intro s hb hr hs _; exact ⟨s, rfl, hb, hr, hs, fun k hk => hk, by simp [withFamily]⟩
  | cons j js ih =>
    intro s hb hr hs hjs
    obtain ⟨s1, h1, b1, r1, u1, m1, f1⟩ := addUnit_in hU hF hb hr hs (hjs j (by simp))
    obtain ⟨s2, h2, b2, r2, u2, m2, f2⟩ := ih b1 r1 u1 (fun k hk => hjs k (by simp [hk]))
    refine ⟨s2, by simp only [addBase, h1, h2], b2, r2, u2, fun k hk => m2 k (m1 k hk), ?_⟩
    intro k hk
    simp only [withFamily, List.flatMap_cons, List.mem_append] at hk
    rcases hk with hk | hk
    · exact m2 k (f1 k hk)
    · exact f2 k hk

theorem book_setState {sem : Sem J I E R} {s : Session J I E R} (hb : Book sem s) (i : I)
    (r : Result R) : Book sem { s with states := modify s.states i (setResult r) } := by
  refine ⟨hb.nodup, ?_, hb.res⟩
  rw [← hb.states]
  simp only [Session.modify, List.map_map]
  apply List.map_congr_left
  intro p _
  simp only [Function.comp]
  split
  · unfold setResult; split <;> rfl
  · rfl

theorem updateResult_in {sem : Sem J I E R} {U : List J} (hU : (U.map sem.id).Nodup)
    (hF : ∀ j ∈ U, ∀ k ∈ sem.family j, k ∈ U) {s : Session J I E R} (hb : Book sem s)
    (hr : s.runList = []) (hs : ∀ k ∈ s.jobs, k ∈ U) {j : J} (hj : j ∈ s.jobs) (r : Result R)
    (hg : ∀ k ∈ genOf sem j r, k ∈ U) :
    ∃ s', updateResult sem s j r = (s', none) ∧ Book sem s' ∧ s'.runList = [] ∧
      (∀ k ∈ s'.jobs, k ∈ U) ∧ (∀ k ∈ s.jobs, k ∈ s'.jobs) ∧
      (∀ k ∈ withFamily sem (genOf sem j r), k ∈ s'.jobs) := by
  obtain ⟨q, hq, _⟩ := hb.lookup_some hj
  have fin : ∀ t : Session J I E R, observeResult sem s j r = (t, none) → Book sem t →
      t.runList = [] → updateResult sem s j r = ((recompute sem t).1, none) ∧
        Book sem (recompute sem t).1 ∧ (recompute sem t).1.runList = [] := by
    intro t ht bt rt
    refine ⟨?_, bt.recompute, rt⟩
    have e := recompute_empty sem rt
    simp only [updateResult, ht]
    rw [← e]
  have hbs := book_setState hb (sem.id j) r
  have hstore : Book sem (storeResource sem
      { s with states := modify s.states (sem.id j) (setResult r) } j r) := by
    unfold storeResource
    split
    · exact hbs
    · refine ⟨hb.nodup, hbs.states, ?_⟩
      intro i hi
      simp only at hi
      rw [← lookup_isSome_iff, lookup_setKey] at hi
      by_cases hij : i = sem.id j
      · rw [hij]; exact List.mem_map.mpr ⟨j, hj, rfl⟩
      · rw [if_neg hij, lookup_isSome_iff] at hi
        exact hb.res i hi
  by_cases hres : sem.isResource j = true
  · by_cases ho : r.outcome = .none
    · have hobs : observeResult sem s j r =
          (storeResource sem { s with states := modify s.states (sem.id j) (setResult r) } j r,
            none) := by
        unfold observeResult
        rw [if_neg (by simp [hq])]
        simp only [hres, if_true, ho]
      obtain ⟨a, b, c⟩ := fin _ hobs hstore (by unfold storeResource; rw [if_pos ho]; exact hr)
      have hj : (storeResource sem
        { s with states := modify s.states (sem.id j) (setResult r) } j r).jobs = s.jobs := by
        unfold storeResource; rw [if_pos ho]
      refine ⟨_, a, b, c, ?_, ?_, ?_⟩
      · intro k hk
        have hk' : k ∈ (storeResource sem
          { s with states := modify s.states (sem.id j) (setResult r) } j r).jobs := hk
        rw [hj] at hk'
        exact hs k hk'
      · intro k hk
        show k ∈ (storeResource sem
          { s with states := modify s.states (sem.id j) (setResult r) } j r).jobs
        rw [hj]; exact hk
      · simp [genOf, ho, withFamily]
    · have hlook : ((storeResource sem
          { s with states := modify s.states (sem.id j) (setResult r) } j r).resources.lookup
            (sem.id j)).getD [] = if r.records.isEmpty then [sem.blank] else r.records := by
        unfold storeResource
        rw [if_neg ho]
        simp only [lookup_setKey, if_true, Option.getD_some]
      have hgen : genOf sem j r = sem.gen j (if r.records.isEmpty then [sem.blank] else r.records) := by
        simp only [genOf, hres, ho, ne_eq, not_false_eq_true, and_self, if_true]
      have hfields : (storeResource sem
          { s with states := modify s.states (sem.id j) (setResult r) } j r).runList = [] ∧
          (storeResource sem
          { s with states := modify s.states (sem.id j) (setResult r) } j r).jobs = s.jobs := by
        unfold storeResource
        rw [if_neg ho]
        exact ⟨hr, rfl⟩
      obtain ⟨t, h1, b1, r1, u1, m1, f1⟩ := addGenerated_in hU hF (genOf sem j r) hstore hfields.1
        (by rw [hfields.2]; exact hs) hg
      have hobs : observeResult sem s j r = (t, none) := by
        unfold observeResult
        rw [if_neg (by simp [hq])]
        simp only [hres, if_true, ho, if_false, hlook]
        rw [← hgen]; exact h1
      obtain ⟨a, b, c⟩ := fin t hobs b1 r1
      rw [hfields.2] at m1
      exact ⟨_, a, b, c, u1, m1, f1⟩
  · have hobs : observeResult sem s j r =
        ({ s with states := modify s.states (sem.id j) (setResult r) }, none) := by
      unfold observeResult
      rw [if_neg (by simp [hq])]
      simp only [hres, if_false, Bool.false_eq_true]
    obtain ⟨a, b, c⟩ := fin _ hobs hbs hr
    refine ⟨_, a, b, c, hs, fun k hk => hk, ?_⟩
    simp [genOf, hres, withFamily]

theorem replay_in {sem : Sem J I E R} {U : List J} (hU : (U.map sem.id).Nodup)
    (hF : ∀ j ∈ U, ∀ k ∈ sem.family j, k ∈ U) {j : J} : ∀ (rs : List (Result R))
    {s : Session J I E R}, Book sem s → s.runList = [] → (∀ k ∈ s.jobs, k ∈ U) → j ∈ s.jobs →
    (∀ r ∈ rs, ∀ k ∈ genOf sem j r, k ∈ U) →
    ∃ s', replay sem j rs s = .done s' ∧ Book sem s' ∧ s'.runList = [] ∧
      (∀ k ∈ s'.jobs, k ∈ U) ∧ (∀ k ∈ s.jobs, k ∈ s'.jobs) ∧
      (∀ r ∈ rs, ∀ k ∈ withFamily sem (genOf sem j r), k ∈ s'.jobs) := by
  intro rs
  induction rs with
  | nil => intro s hb hr hs _ _; exact ⟨s, rfl, hb, hr, hs, fun k hk => hk, by simp⟩
  | cons r rs ih =>
    intro s hb hr hs hj hg
    obtain ⟨s1, h1, b1, r1, u1, m1, f1⟩ := updateResult_in hU hF hb hr hs hj r (hg r (by simp))
    obtain ⟨s2, h2, b2, r2, u2, m2, f2⟩ := ih b1 r1 u1 (m1 j hj) (fun r' hr' => hg r' (by simp [hr']))
    refine ⟨s2, by simp only [replay, h1, h2], b2, r2, u2, fun k hk => m2 k (m1 k hk), ?_⟩
    intro r' hr' k hk
    rcases List.mem_cons.mp hr' with rfl | hr'
    · exact m2 k (f1 k hk)
    · exact f2 r' hr' k hk

/-- Jobs that can be had from the jobs given to resume: those jobs, their siblings, and what
templates make from the results in the document. -/
inductive DProd (f : Fmt J R C W) (sem : Sem J I E R) (base : List J) (d : Doc I C W) : J → Prop where
  | base {k} : k ∈ withFamily sem base → DProd f sem base d k
  | gen {j ws rs r k} : DProd f sem base d j → d.results.lookup (sem.id j) = some ws →
      readAll f ws = some rs → r ∈ rs → k ∈ withFamily sem (genOf sem j r) → DProd f sem base d k

/-- What is needed of a document. -/
structure Env (f : Fmt J R C W) (sem : Sem J I E R) (base U : List J) (d : Doc I C W) : Prop where
  uniq : (U.map sem.id).Nodup
  baseSub : ∀ j ∈ base, j ∈ U
  fam : ∀ j ∈ U, ∀ k ∈ sem.family j, k ∈ U
  doc : ∀ i ∈ d.jobs.map Prod.fst ++ d.results.map Prod.fst, ∃ j ∈ U, sem.id j = i ∧
    d.jobs.lookup i = some (f.cks j) ∧ DProd f sem base d j ∧
    ∀ ws, d.results.lookup i = some ws → ∃ rs, readAll f ws = some rs ∧
      ∀ r ∈ rs, ∀ k ∈ genOf sem j r, k ∈ U

/-- The state of processing. -/
structure In (f : Fmt J R C W) (sem : Sem J I E R) (base U : List J) (d : Doc I C W)
    (P : I → Prop) (s : Session J I E R) : Prop where
  book : Book sem s
  run : s.runList = []
  sub : ∀ k ∈ s.jobs, k ∈ U
  pin : ∀ i, P i → i ∈ s.jobs.map sem.id
  baseIn : ∀ k ∈ withFamily sem base, k ∈ s.jobs
  gens : ∀ j ∈ s.jobs, P (sem.id j) → ∀ ws rs, d.results.lookup (sem.id j) = some ws →
    readAll f ws = some rs → ∀ r ∈ rs, ∀ k ∈ withFamily sem (genOf sem j r), k ∈ s.jobs

theorem processJob_in {f : Fmt J R C W} {sem : Sem J I E R} {base U : List J} {d : Doc I C W}
    (he : Env f sem base U d) {P : I → Prop} {s : Session J I E R} (h : In f sem base U d P s) {i : I}
    (hi : i ∈ d.jobs.map Prod.fst ++ d.results.map Prod.fst) :
    (processJob f sem d s i = .keyError s ∧ i ∉ s.jobs.map sem.id) ∨
    ∃ s', processJob f sem d s i = .done s' ∧ In f sem base U d (fun k => P k ∨ k = i) s' ∧
      ∀ k ∈ s.jobs, k ∈ s'.jobs := by
  obtain ⟨j, hjU, hji, hjd, _, hres⟩ := he.doc i hi
  unfold processJob
  rw [hjd]
  simp only
  cases hq : s.states.lookup i with
  | none =>
    left
    exact ⟨rfl, (h.book.lookup_none i).mp hq⟩
  | some q =>
    right
    obtain ⟨a, b⟩ := h.book.lookup_job hq
    have hqj : q.job = j := eq_of_id (g := sem.graph) he.uniq (h.sub _ a) hjU (b.trans hji.symm)
    subst hqj
    simp only [ne_eq, not_true, if_false]
    rw [b]
    cases hr : d.results.lookup i with
    | none =>
      refine ⟨s, rfl, ⟨h.book, h.run, h.sub, ?_, h.baseIn, ?_⟩, fun k hk => hk⟩
      · rintro k (hk | rfl)
        · exact h.pin k hk
        · exact List.mem_map.mpr ⟨_, a, b⟩
      · rintro j hj (hP | hP) ws rs hw
        · exact h.gens j hj hP ws rs hw
        · rw [hP, hr] at hw; simp at hw
    | some ws =>
      obtain ⟨rs, hrs, hg⟩ := hres ws hr
      obtain ⟨s1, h1, b1, r1, u1, m1, f1⟩ := replay_in he.uniq he.fam rs h.book h.run h.sub a hg
      simp only [hrs, h1]
      have up : ∀ k ∈ s.jobs.map sem.id, k ∈ s1.jobs.map sem.id := by
        intro k hk
        obtain ⟨j, hj, hjk⟩ := List.mem_map.mp hk
        exact List.mem_map.mpr ⟨j, m1 j hj, hjk⟩
      refine ⟨s1, rfl, ⟨b1, r1, u1, ?_, fun k hk => m1 k (h.baseIn k hk), ?_⟩, m1⟩
      · rintro k (hk | rfl)
        · exact up k (h.pin k hk)
        · exact up _ (List.mem_map.mpr ⟨_, a, b⟩)
      · intro j hj hP ws' rs' hw hr' r hrr k hk
        by_cases hid : sem.id j = i
        · have : j = q.job := eq_of_id (g := sem.graph) he.uniq (u1 j hj) (h.sub _ a)
            (hid.trans b.symm)
          subst this
          rw [hid, hr] at hw
          simp only [Option.some.injEq] at hw
          subst hw
          rw [hrs] at hr'
          simp only [Option.some.injEq] at hr'
          subst hr'
          exact f1 r hrr k hk
        · rcases hP with hP | hP
          · obtain ⟨j0, hj0, hj0i⟩ := List.mem_map.mp (h.pin _ hP)
            have : j0 = j := eq_of_id (g := sem.graph) he.uniq (h.sub _ hj0) (u1 j hj) hj0i
            subst this
            exact m1 k (h.gens j0 hj0 hP ws' rs' hw hr' r hrr k hk)
          · exact absurd hP hid

theorem In.congr {f : Fmt J R C W} {sem : Sem J I E R} {base U : List J} {d : Doc I C W}
    {P Q : I → Prop} {s : Session J I E R} (h : In f sem base U d P s) (hPQ : ∀ i, Q i ↔ P i) :
    In f sem base U d Q s := by
  have : Q = P := funext fun i => propext (hPQ i)
  rw [this]; exact h

theorem pass_in {f : Fmt J R C W} {sem : Sem J I E R} {base U : List J} {d : Doc I C W}
    (he : Env f sem base U d) : ∀ (is : List I) {P : I → Prop} {s : Session J I E R},
    In f sem base U d P s → is.Nodup →
    (∀ i ∈ is, i ∈ d.jobs.map Prod.fst ++ d.results.map Prod.fst) →
    ∃ s' left, pass f sem d is s = .ok (s', left) ∧
      In f sem base U d (fun k => P k ∨ (k ∈ is ∧ k ∉ left)) s' ∧ left.Sublist is ∧
      (left.length < is.length ∨ (left = is ∧ s' = s ∧ ∀ i ∈ is, i ∉ s.jobs.map sem.id)) := by
  intro is
  induction is with
  | nil =>
    intro P s h _ _
    exact ⟨s, [], rfl, h.congr (by simp), .refl _, .inr ⟨rfl, rfl, by simp⟩⟩
  | cons i is ih =>
    intro P s h hnd hk
    rw [List.nodup_cons] at hnd
    rcases processJob_in he h (hk i (by simp)) with ⟨h1, hni⟩ | ⟨s1, h1, hin, _⟩
    · obtain ⟨s', left, h2, h3, h4, h5⟩ := ih h hnd.2 (fun x hx => hk x (by simp [hx]))
      refine ⟨s', i :: left, by simp only [pass, h1, h2], h3.congr ?_, h4.cons_cons i, ?_⟩
      · intro k
        simp only [List.mem_cons, not_or]
        constructor
        · rintro (hP | ⟨hk1 | hk1, hk2, hk3⟩)
          · exact .inl hP
          · exact absurd hk1 hk2
          · exact .inr ⟨hk1, hk3⟩
        · rintro (hP | ⟨hk1, hk2⟩)
          · exact .inl hP
          · exact .inr ⟨.inr hk1, (by rintro rfl; exact hnd.1 hk1), hk2⟩
      · rcases h5 with h5 | ⟨rfl, rfl, h5⟩
        · left; simpa using h5
        · right
          refine ⟨rfl, rfl, ?_⟩
          intro x hx
          rcases List.mem_cons.mp hx with rfl | hx
          · exact hni
          · exact h5 x hx
    · obtain ⟨s', left, h2, h3, h4, h5⟩ := ih hin hnd.2 (fun x hx => hk x (by simp [hx]))
      refine ⟨s', left, by simp only [pass, h1, h2], h3.congr ?_, h4.cons i, ?_⟩
      · intro k
        simp only [List.mem_cons]
        constructor
        · rintro (hP | ⟨hk1 | hk1, hk2⟩)
          · exact .inl (.inl hP)
          · exact .inl (.inr hk1)
          · exact .inr ⟨hk1, hk2⟩
        · rintro ((hP | rfl) | ⟨hk1, hk2⟩)
          · exact .inl hP
          · exact .inr ⟨.inl rfl, fun hc => hnd.1 (h4.subset hc)⟩
          · exact .inr ⟨.inr hk1, hk2⟩
      · left
        have := h4.length_le
        simp only [List.length_cons]
        omega

theorem prod_in {f : Fmt J R C W} {sem : Sem J I E R} {base U : List J} {d : Doc I C W}
    {P : I → Prop} {s : Session J I E R} (h : In f sem base U d P s)
    (hall : ∀ i, (∃ ws, d.results.lookup i = some ws) → i ∈ s.jobs.map sem.id → P i) {j : J}
    (hp : DProd f sem base d j) : j ∈ s.jobs := by
  induction hp with
  | base hk => exact h.baseIn _ hk
  | gen _ hw hr hrr hk ih =>
    exact h.gens _ ih (hall _ ⟨_, hw⟩ (List.mem_map.mpr ⟨_, ih, rfl⟩)) _ _ hw hr _ hrr _ hk

theorem rounds_in {f : Fmt J R C W} {sem : Sem J I E R} {base U : List J} {d : Doc I C W}
    (he : Env f sem base U d) : ∀ (n : Nat) (left : List I) {P : I → Prop} {s : Session J I E R},
    left.length ≤ n → In f sem base U d P s → left.Nodup →
    (∀ i ∈ left, i ∈ d.jobs.map Prod.fst ++ d.results.map Prod.fst) →
    (∀ i ∈ d.jobs.map Prod.fst ++ d.results.map Prod.fst, P i ∨ i ∈ left) →
    ∃ s', rounds f sem d n left s = .ok s' := by
  intro n
  induction n with
  | zero =>
    intro left P s hn _ _ _ _
    have : left = [] := List.length_eq_zero_iff.mp (by omega)
    subst this
    exact ⟨s, rfl⟩
  | succ n ih =>
    intro left P s hn h hnd hk hall
    cases left with
    | nil => exact ⟨s, rfl⟩
    | cons i is =>
      obtain ⟨s', left', h2, h3, h4, h5⟩ := pass_in he (i :: is) h hnd hk
      simp only [rounds, h2]
      rcases h5 with h5 | ⟨rfl, rfl, h5⟩
      · rw [if_pos h5]
        apply ih left' (by omega) h3 (hnd.sublist h4) (fun x hx => hk x (h4.subset hx))
        intro x hx
        by_cases hxl : x ∈ left'
        · exact .inr hxl
        · rcases hall x hx with hP | hP
          · exact .inl (.inl hP)
          · exact .inl (.inr ⟨hP, hxl⟩)
      · exfalso
        obtain ⟨j, hjU, hji, _, hprod, _⟩ := he.doc i (hk i (by simp))
        have : j ∈ s'.jobs := by
          refine prod_in h ?_ hprod
          intro x hx hxs
          rcases hall x (List.mem_append.mpr (.inr (by
            rw [← lookup_isSome_iff]; exact Option.isSome_iff_exists.mpr hx))) with hP | hP
          · exact hP
          · exact absurd hxs (h5 x hP)
        exact h5 i (by simp) (List.mem_map.mpr ⟨j, this, hji⟩)

theorem dedupLoop_in {sem : Sem J I E R} {U : List J} (hU : (U.map sem.id).Nodup) : ∀ (n : Nat)
    (l : List J), l.length < n → (∀ j ∈ l, j ∈ U) →
    ∃ r, dedupLoop sem n l = .ok r ∧ ∀ j ∈ r, j ∈ U := by
  intro n
  induction n with
  | zero => intro l h; omega
  | succ n ih =>
    intro l hl hs
    have hspec := DepMgr.getJobMapAux_spec (g := sem.graph) l [] (by simp)
    simp only [List.map_nil, List.nil_append] at hspec
    cases hm : DepMgr.getJobMap sem.graph l with
    | ok m => exact ⟨l, by simp only [dedupLoop, hm], hs⟩
    | error e =>
      rw [show DepMgr.getJobMapAux sem.graph l [] = DepMgr.getJobMap sem.graph l from rfl, hm]
        at hspec
      obtain ⟨pre, a, mid, b, post, h1, h2, rfl⟩ := hspec
      have ha : a ∈ l := by rw [h1]; simp
      have hb : b ∈ l := by rw [h1]; simp
      have hab : a = b := eq_of_id (g := sem.graph) hU (hs a ha) (hs b hb) h2
      simp only [dedupLoop, hm]
      rw [if_pos hab]
      apply ih
      · rw [List.length_erase_of_mem hb]
        have := List.length_pos_of_mem hb
        omega
      · exact fun j hj => hs j (List.mem_of_mem_erase hj)

/-- Restoring jobs and results succeeds. -/
theorem restoreResults_in {f : Fmt J R C W} {sem : Sem J I E R} {base U : List J} {d : Doc I C W}
    (he : Env f sem base U d) {sortIds : List I → List I} (hsort : SortOK sortIds) :
    ∃ s0 s1, construct sem base = .ok s0 ∧ restoreResults f sem sortIds base d s0 = .ok s1 := by
  obtain ⟨r, hr, hrU⟩ := dedupLoop_in he.uniq (base.length + 1) base (by omega) he.baseSub
  have hc : construct sem base =
      .ok ⟨r, base, r.map (fun j => (sem.id j, JobState.new j)), [], [], [], []⟩ := by
    simp only [construct, hr]
  have hlive := construct_live hc
  obtain ⟨sa, ha, ba, ra, ua, _, fa⟩ := addBase_in he.uniq he.fam base hlive.book rfl hrU he.baseSub
  have hin : In f sem base U d (fun _ => False) sa := ⟨ba, ra, ua, by simp, fa, by simp⟩
  obtain ⟨s', left, h2, h3, h4, _⟩ := pass_in he
    (sortIds (d.jobs.map Prod.fst ++ d.results.map Prod.fst)) hin (hsort _).1
    (fun i hi => ((hsort _).2 i).mp hi)
  obtain ⟨s1, h5⟩ := rounds_in he left.length left (Nat.le_refl _) h3 ((hsort _).1.sublist h4)
    (fun i hi => ((hsort _).2 i).mp (h4.subset hi)) (by
      intro i hi
      by_cases hl : i ∈ left
      · exact .inr hl
      · exact .inl (.inr ⟨((hsort _).2 i).mpr hi, hl⟩))
  refine ⟨_, s1, hc, ?_⟩
  simp only [restoreResults, ha, h2, h5]

end Verif.Suspend
