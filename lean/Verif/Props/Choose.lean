import Verif.Model.Choose
import Verif.Props.Nest
import Verif.Props.Overrides
import Verif.Props.Pattern

/-! # C88: choosing jobs on the command line -/

namespace Verif.Choose

open Verif.Pattern (Str parseRe reMatch Full Piece MSeq)
open Verif.Overrides (Rx Agrees)
open Verif.Qualifiers (Kind Prim Qual selectJobs flatPrimitives Includes Excludes)
open Verif.Nest (Plan Unit' Err each qualifier Part On Boots Casts)

set_option linter.unusedSectionVars false

variable {P : Type}

/-! ## Specification -/

/-- The first test plan of the units. -/
def First (us : List (Unit' (Job P) Str)) (t : Plan (Job P) Str) : Prop :=
  ∃ k, us = List.replicate k .other ++ .plan t :: us.drop (k + 1)

/-- The plan that was asked for, in a provider of one of the jobs. -/
def Asked (idMap : P → Str → List (Unit' (Job P) Str)) (jobs : List (Job P)) (a : Args) (t : Plan (Job P) Str) : Prop :=
  ∃ i j, a.plan = some i ∧ j ∈ jobs ∧ First (idMap j.provider i) t

/-- The plan or one of its parts has the job among those to include. -/
def PlanIncludes (units : List (Str × Unit' (Job P) Str)) (t : Plan (Job P) Str) (j : Job P) : Prop :=
  ∃ q, Part units t q ∧ On Job.id q.incl j

/-- The plan or one of its parts has the job among those to exclude, or in the bootstrapping stage. -/
def PlanExcludes (units : List (Str × Unit' (Job P) Str)) (t : Plan (Job P) Str) (j : Job P) : Prop :=
  ∃ q, Part units t q ∧ (On Job.id q.excl j ∨ Boots Job.id q j)

/-- The pattern, anchored at both ends, compiles and matches the identifier. -/
def Hits (rx : Rx) (p id : Str) : Prop := rx.valid (['^'] ++ p ++ ['$']) = true ∧ rx.mt (['^'] ++ p ++ ['$']) id = true

/-- A set of providers, in some order. -/
def SetOrder (order : List P → List P) : Prop := ∀ l p, p ∈ order l ↔ p ∈ l

/-- The position of the first pattern that hits the job at an index. -/
def firstHit (rx : Rx) (ps : List Str) (jobs : List (Job P)) (i : Nat) : Nat :=
  ps.findIdx fun p => match jobs[i]? with
    | some j => rx.valid (['^'] ++ p ++ ['$']) && rx.mt (['^'] ++ p ++ ['$']) j.id
    | none => false

/-! ## Lemmas -/

theorem around_eq (p : Str) : around p = ['^'] ++ p ++ ['$'] := by simp [around]

theorem firstPlan_first {us : List (Unit' (Job P) Str)} {t : Plan (Job P) Str} :
    firstPlan us = some t ↔ First us t := by
  induction us with
  | nil =>
    simp only [firstPlan, First]
    constructor
    · intro h; cases h
    · rintro ⟨k, hk⟩; simp at hk
  | cons u us ih =>
    cases u with
    | plan q =>
      simp only [firstPlan, Option.some.injEq]
      constructor
      · rintro rfl; exact ⟨0, by simp⟩
      · rintro ⟨k, hk⟩
        cases k with
        | zero => simpa using hk
        | succ k => simp [List.replicate_succ] at hk
    | other =>
      simp only [firstPlan]
      rw [ih]
      constructor
      · rintro ⟨k, hk⟩
        refine ⟨k + 1, ?_⟩
        simp only [List.replicate_succ, List.cons_append, List.drop_succ_cons]
        rw [← hk]
      · rintro ⟨k, hk⟩
        cases k with
        | zero => simp at hk
        | succ k =>
          refine ⟨k, ?_⟩
          simpa [List.replicate_succ] using hk

theorem mem_patterns {rx : Rx} {b : Bool} {ps : List Str} {x : Prim (Job P) Str} :
    x ∈ flatPrimitives (ps.filterMap (patternQualifier (P := P) rx b)) ↔
      ∃ p ∈ ps, rx.valid (around p) = true ∧ x = ⟨b, .other fun j => rx.mt (around p) j.id⟩ := by
  rw [Qualifiers.flat_eq]
  simp only [List.mem_flatMap, List.mem_filterMap, patternQualifier]
  constructor
  · rintro ⟨q, ⟨p, hp, hq⟩, hx⟩
    split at hq
    · next hv =>
      cases hq
      simp only [Qual.primitives, List.mem_singleton] at hx
      exact ⟨p, hp, hv, hx⟩
    · cases hq
  · rintro ⟨p, hp, hv, rfl⟩
    exact ⟨_, ⟨p, hp, if_pos hv⟩, by simp [Qual.primitives]⟩

theorem mem_plans {units : List (Str × Unit' (Job P) Str)} {n : Nat} {idMap : P → Str → List (Unit' (Job P) Str)}
    {order : List P → List P} (ho : SetOrder order) {jobs : List (Job P)} {a : Args} {qs : List (Qual (Job P) Str)}
    (h : planQualifiers units n idMap (order (jobs.map Job.provider)) a.plan = .ok qs) (x : Prim (Job P) Str) :
    x ∈ flatPrimitives qs ↔ ∃ t, Asked idMap jobs a t ∧ ∃ q, Part units t q ∧ Casts q x := by
  cases hp : a.plan with
  | none =>
    rw [hp] at h
    cases h
    simp only [flatPrimitives, List.not_mem_nil, false_iff]
    rintro ⟨t, ⟨i, j, hi, _⟩, _⟩
    rw [hp] at hi
    cases hi
  | some i =>
    rw [hp] at h
    simp only [planQualifiers] at h
    obtain ⟨h1, h2⟩ := Nest.each_ok h
    have hmem : ∀ t, t ∈ (order (jobs.map Job.provider)).filterMap (fun p => firstPlan (idMap p i)) ↔
        Asked idMap jobs a t := by
      intro t
      simp only [List.mem_filterMap, firstPlan_first]
      constructor
      · rintro ⟨p, hp', ht⟩
        rw [ho, List.mem_map] at hp'
        obtain ⟨j, hj, rfl⟩ := hp'
        exact ⟨i, j, hp, hj, ht⟩
      · rintro ⟨i', j, hi, hj, ht⟩
        rw [hp] at hi
        cases hi
        exact ⟨j.provider, (ho _ _).2 (List.mem_map.2 ⟨j, hj, rfl⟩), ht⟩
    rw [Qualifiers.flat_eq, List.mem_flatMap]
    constructor
    · rintro ⟨q, hq, hx⟩
      obtain ⟨t, ht, hq'⟩ := h2 q hq
      exact ⟨t, (hmem t).1 ht, (Nest.qualifier_spec hq' x).1 hx⟩
    · rintro ⟨t, ht, hc⟩
      obtain ⟨q, hq, hq'⟩ := h1 t ((hmem t).2 ht)
      exact ⟨q, hq, (Nest.qualifier_spec hq' x).2 hc⟩

theorem matching_ok {rx : Rx} {order : List P → List P} {units : List (Str × Unit' (Job P) Str)} {n : Nat}
    {idMap : P → Str → List (Unit' (Job P) Str)} {a : Args} {jobs l : List (Job P)}
    (h : matching rx order units n idMap a jobs = .ok l) :
    ∃ plan, planQualifiers units n idMap (order (jobs.map Job.provider)) a.plan = .ok plan ∧
      l = selectJobs Job.id jobs
        (plan ++ a.incl.filterMap (patternQualifier rx true) ++ a.excl.filterMap (patternQualifier rx false)) := by
  unfold matching at h
  split at h
  · cases h
  · next plan hp => cases h; exact ⟨plan, hp, rfl⟩

theorem findIdx_filterMap {α β : Type} (f : α → Option β) (q1 q2 : β → Bool) : ∀ l : List α,
    ((l.filterMap f).findIdx q1 < (l.filterMap f).findIdx q2 ↔
      (l.findIdx fun a => (f a).any q1) < l.findIdx fun a => (f a).any q2) ∧
    ((l.filterMap f).findIdx q1 = (l.filterMap f).findIdx q2 ↔
      (l.findIdx fun a => (f a).any q1) = l.findIdx fun a => (f a).any q2)
  | [] => by simp
  | a :: l => by
    obtain ⟨h1, h2⟩ := findIdx_filterMap f q1 q2 l
    cases hf : f a with
    | none => simp [hf, List.findIdx_cons, h1, h2]
    | some b =>
      cases hb1 : q1 b <;> cases hb2 : q2 b <;> simp [hf, List.findIdx_cons, hb1, hb2, h1, h2]

theorem flat_patterns (rx : Rx) (b : Bool) (ps : List Str) :
    flatPrimitives (ps.filterMap (patternQualifier (P := P) rx b)) =
      ps.filterMap fun p => if rx.valid (around p) then some ⟨b, .other fun j => rx.mt (around p) j.id⟩ else none := by
  rw [Qualifiers.flat_eq]
  induction ps with
  | nil => rfl
  | cons p ps ih =>
    simp only [List.filterMap_cons, patternQualifier]
    cases rx.valid (around p) with
    | true => simpa [Qual.primitives, patternQualifier] using ih
    | false => simpa [patternQualifier] using ih

/-! ## Theorems -/

/-- What is chosen: the jobs that the plan includes or a pattern of `-i` hits, except those that the plan excludes or
a pattern of `-x` hits. -/
theorem C88_selected (rx : Rx) {order : List P → List P} (ho : SetOrder order)
    (units : List (Str × Unit' (Job P) Str)) (n : Nat) (idMap : P → Str → List (Unit' (Job P) Str)) (a : Args)
    {jobs l : List (Job P)} (hid : (jobs.map Job.id).Nodup)
    (h : matching rx order units n idMap a jobs = .ok l) (j : Job P) :
    j ∈ l ↔ j ∈ jobs ∧
      ((∃ t, Asked idMap jobs a t ∧ PlanIncludes units t j) ∨ ∃ p ∈ a.incl, Hits rx p j.id) ∧
      (∀ t, Asked idMap jobs a t → ¬ PlanExcludes units t j) ∧ ∀ p ∈ a.excl, ¬ Hits rx p j.id := by
  obtain ⟨plan, hp, rfl⟩ := matching_ok h
  have hm := mem_plans ho hp
  classical
  rw [Narrow.mem_selectJobs hid]
  simp only [Nest.flat_append, List.mem_append, mem_patterns, hm]
  apply and_congr_right
  intro _
  apply and_congr
  · constructor
    · rintro ⟨x, (⟨t, ht, q, hq, hc⟩ | ⟨p, hp, hv, rfl⟩) | ⟨p, hp, hv, rfl⟩, hx⟩
      · refine .inl ⟨t, ht, q, hq, ?_⟩
        rcases hc with ⟨l, k, hl, hk, rfl⟩ | ⟨l, k, hl, hk, rfl⟩ | ⟨l, i, hl, hk, rfl⟩
        · exact ⟨l, k, hl, hk, (Nest.matches_fits Job.id _ k j).1 hx.1⟩
        · cases hx.2
        · cases hx.2
      · refine .inr ⟨p, hp, ?_⟩
        have := hx.1
        simp only [Prim.matches] at this
        rw [around_eq] at hv this
        exact ⟨hv, this⟩
      · cases hx.2
    · rintro (⟨t, ht, q, hq, l, k, hl, hk, hf⟩ | ⟨p, hp, hv, hx⟩)
      · exact ⟨⟨true, k⟩, .inl (.inl ⟨t, ht, q, hq, .inl ⟨l, k, hl, hk, rfl⟩⟩),
          (Nest.matches_fits Job.id _ k j).2 hf, rfl⟩
      · rw [← around_eq] at hv hx
        exact ⟨_, .inl (.inr ⟨p, hp, hv, rfl⟩), hx, rfl⟩
  · constructor
    · intro hn
      constructor
      · rintro t ht ⟨q, hq, ⟨l, k, hl, hk, hf⟩ | ⟨l, hl, hk⟩⟩
        · exact hn ⟨⟨false, k⟩, .inl (.inl ⟨t, ht, q, hq, .inr (.inl ⟨l, k, hl, hk, rfl⟩)⟩),
            (Nest.matches_fits Job.id _ k j).2 hf, rfl⟩
        · exact hn ⟨⟨false, .idEq j.id⟩, .inl (.inl ⟨t, ht, q, hq, .inr (.inr ⟨l, j.id, hl, hk, rfl⟩)⟩),
            (Nest.matches_fits Job.id _ (.idEq j.id) j).2 rfl, rfl⟩
      · rintro p hp ⟨hv, hx⟩
        rw [← around_eq] at hv hx
        exact hn ⟨_, .inr ⟨p, hp, hv, rfl⟩, hx, rfl⟩
    · rintro ⟨h1, h2⟩ ⟨x, (⟨t, ht, q, hq, hc⟩ | ⟨p, hp, hv, rfl⟩) | ⟨p, hp, hv, rfl⟩, hx⟩
      · rcases hc with ⟨l, k, hl, hk, rfl⟩ | ⟨l, k, hl, hk, rfl⟩ | ⟨l, i, hl, hk, rfl⟩
        · cases hx.2
        · exact h1 t ht ⟨q, hq, .inl ⟨l, k, hl, hk, (Nest.matches_fits Job.id _ k j).1 hx.1⟩⟩
        · have := (Nest.matches_fits Job.id _ (.idEq i) j).1 hx.1
          exact h1 t ht ⟨q, hq, .inr ⟨l, hl, by rw [← show i = j.id from this]; exact hk⟩⟩
      · cases hx.2
      · have := hx.1
        simp only [Prim.matches] at this
        rw [around_eq] at hv this
        exact h2 p hp ⟨hv, this⟩

/-- A pattern hits the jobs whose identifiers it matches in full. Partial: only patterns without alternatives at top
level. -/
theorem C88_pattern_partial {setMem : Str → Char → Bool} {rx : Rx} (hrx : Agrees setMem rx) {p id : Str}
    {b : List Piece} (hp : parseRe p = some [b]) (hn : '\n' ∉ id) : Hits rx p id ↔ Full setMem p id := by
  have hpre : Pattern.run Pattern.init ['^'] = some ⟨.normal, ⟨[], [(.bol, .one)]⟩, []⟩ := by
    simpa using Pattern.run_caret (t := []) (by simp)
  have hpp := (Pattern.parse_around hpre hp).2
  obtain ⟨hv, hm⟩ := hrx _ id _ hpp
  unfold Hits
  rw [hm]
  simp only [hv, true_and, reMatch, List.mem_singleton, exists_eq_left]
  rw [Pattern.full_single hp]
  constructor
  · rintro ⟨j, hj⟩
    rw [Pattern.mseq_append] at hj
    obtain ⟨k, hk, he⟩ := hj
    obtain ⟨rfl, _⟩ := (Pattern.eol_end hn).1 he
    simp only [List.cons_append, List.nil_append, MSeq, Pattern.mbol] at hk
    obtain ⟨_, ⟨_, rfl⟩, hk⟩ := hk
    exact hk
  · intro h
    refine ⟨id.length, ?_⟩
    rw [Pattern.mseq_append]
    exact ⟨id.length, ⟨0, Pattern.mbol.2 ⟨rfl, rfl⟩, h⟩, (Pattern.eol_end hn).2 ⟨rfl, rfl⟩⟩

/-- Without a test plan the jobs come in the order of the patterns that hit them first, and then as they were
loaded; each comes once. -/
theorem C88_order (rx : Rx) (order : List P → List P) (units : List (Str × Unit' (Job P) Str)) (n : Nat)
    (idMap : P → Str → List (Unit' (Job P) Str)) (a : Args) (hplan : a.plan = none) (jobs : List (Job P))
    (hid : (jobs.map Job.id).Nodup) :
    ∃ (l : List (Job P)) (sel : List Nat), matching rx order units n idMap a jobs = .ok l ∧ l.map some = sel.map (fun i : Nat => jobs[i]?) ∧
      sel.Nodup ∧
      sel.Pairwise fun i k => firstHit rx a.incl jobs i < firstHit rx a.incl jobs k ∨
        (firstHit rx a.incl jobs i = firstHit rx a.incl jobs k ∧ i < k) := by
  refine ⟨selectJobs Job.id jobs
    (a.incl.filterMap (patternQualifier rx true) ++ a.excl.filterMap (patternQualifier rx false)), ?_⟩
  obtain ⟨sel, h1, h2, h3, h4⟩ := Qualifiers.C13_select_jobs Job.id jobs hid
    (a.incl.filterMap (patternQualifier rx true) ++ a.excl.filterMap (patternQualifier rx false))
  refine ⟨sel, by simp [matching, hplan, planQualifiers], h1, h4, ?_⟩
  rw [Nest.flat_append, flat_patterns, flat_patterns] at h2 h3
  let inc : Nat → Prim (Job P) Str → Bool := fun i p => (jobs[i]?).any fun j => decide (Includes Job.id p j)
  have hinc : ∀ ps i, Qualifiers.firstIncluder Job.id jobs ps i = ps.findIdx (inc i) := by
    intro ps i
    unfold Qualifiers.firstIncluder
    congr 1
  let f : Str → Option (Prim (Job P) Str) := fun p =>
    if rx.valid (around p) then some ⟨true, .other fun j => rx.mt (around p) j.id⟩ else none
  have key : ∀ i ∈ sel, Qualifiers.firstIncluder Job.id jobs (a.incl.filterMap f ++
      a.excl.filterMap fun p => if rx.valid (around p) then some ⟨false, .other fun j => rx.mt (around p) j.id⟩ else none) i
      = (a.incl.filterMap f).findIdx (inc i) := by
    intro i hi
    obtain ⟨j, hj, ⟨p, hp, hpi⟩, -⟩ := (h2 i).1 hi
    have hp' : p ∈ a.incl.filterMap f := by
      rcases List.mem_append.1 hp with hp | hp
      · exact hp
      · obtain ⟨t, -, ht⟩ := List.mem_filterMap.1 hp
        split at ht
        · cases ht; cases hpi.2
        · cases ht
    have hlt : (a.incl.filterMap f).findIdx (inc i) < (a.incl.filterMap f).length := by
      rw [List.findIdx_lt_length]
      exact ⟨p, hp', by simp [inc, hj, hpi]⟩
    rw [hinc, List.findIdx_append, if_pos hlt]
  have hfirst : ∀ i, firstHit rx a.incl jobs i = a.incl.findIdx fun p => (f p).any (inc i) := by
    intro i
    unfold firstHit
    congr 1
    funext p
    simp only [f, inc, around_eq]
    cases hj : jobs[i]? with
    | none => cases rx.valid (['^'] ++ p ++ ['$']) <;> simp
    | some j =>
      cases hv : rx.valid (['^'] ++ p ++ ['$']) with
      | true => simp [Includes, Prim.matches]
      | false => simp
  refine h3.imp_of_mem ?_
  intro i k hi hk h
  rw [key i hi, key k hk] at h
  rw [hfirst, hfirst]
  obtain ⟨e1, e2⟩ := findIdx_filterMap f (inc i) (inc k) a.incl
  rw [← e1, ← e2]
  exact h

/-- A pattern that does not compile changes nothing, whether it is given with `-i` or with `-x`. -/
theorem C88_bad (rx : Rx) (order : List P → List P) (units : List (Str × Unit' (Job P) Str)) (n : Nat)
    (idMap : P → Str → List (Unit' (Job P) Str)) (a : Args) (jobs : List (Job P)) (p : Str)
    (hbad : rx.valid (['^'] ++ p ++ ['$']) = false) (x y : List Str) :
    matching rx order units n idMap { a with incl := x ++ p :: y } jobs =
      matching rx order units n idMap { a with incl := x ++ y } jobs ∧
    matching rx order units n idMap { a with excl := x ++ p :: y } jobs =
      matching rx order units n idMap { a with excl := x ++ y } jobs := by
  rw [← around_eq] at hbad
  constructor <;>
    simp only [matching, List.filterMap_append, List.filterMap_cons, patternQualifier, hbad, Bool.false_eq_true,
      if_false]

/-- A plan that no provider of a job has changes nothing. -/
theorem C88_unknown {rx : Rx} {order : List P → List P} (ho : SetOrder order)
    (units : List (Str × Unit' (Job P) Str)) (n : Nat) (idMap : P → Str → List (Unit' (Job P) Str)) (a : Args)
    (jobs : List (Job P)) (h : ∀ t, ¬ Asked idMap jobs a t) :
    matching rx order units n idMap a jobs = matching rx order units n idMap { a with plan := none } jobs := by
  have : planQualifiers units n idMap (order (jobs.map Job.provider)) a.plan = .ok [] := by
    cases hp : a.plan with
    | none => rfl
    | some i =>
      have hnil : (order (jobs.map Job.provider)).filterMap (fun p => firstPlan (idMap p i)) = [] := by
        rw [List.filterMap_eq_nil_iff]
        intro p hpm
        rw [ho, List.mem_map] at hpm
        obtain ⟨j, hj, rfl⟩ := hpm
        cases hf : firstPlan (idMap j.provider i) with
        | none => rfl
        | some t => exact absurd ⟨i, j, hp, hj, firstPlan_first.1 hf⟩ (h t)
      simp [planQualifiers, hnil, each]
  unfold matching
  rw [this]
  rfl

/-- When a plan is in one provider only, the categories come from it and the session remembers it; if the provider has
jobs, it is the plan that is asked for. -/
theorem C88_lookup (idMap : P → Str → List (Unit' (Job P) Str)) (providers : List P) (i : Str) (p : P)
    (t : Plan (Job P) Str) (hp : p ∈ providers) (ht : First (idMap p i) t)
    (hone : ∀ q ∈ providers, ∀ t', First (idMap q i) t' → q = p) (jobs : List (Job P))
    (hjobs : ∀ j ∈ jobs, j.provider ∈ providers) (x y : List Str) :
    findTestPlan idMap providers (some i) = some t ∧ recorded idMap i providers none = some t ∧
      ∀ t', Asked idMap jobs ⟨some i, x, y⟩ t' ↔ t' = t ∧ ∃ j ∈ jobs, j.provider = p := by
  have huniq : ∀ t', First (idMap p i) t' → t' = t := by
    intro t' h'
    have := (firstPlan_first.2 h').symm.trans (firstPlan_first.2 ht)
    simpa using this
  have key : ∀ l : List P, (∀ q ∈ l, ∀ t', First (idMap q i) t' → q = p) → ∀ now,
      (p ∈ l → findTestPlan idMap l (some i) = some t) ∧
      (p ∈ l ∨ now = some t → recorded idMap i l now = some t) := by
    intro l
    induction l with
    | nil => intro _ now; simp [recorded]
    | cons q l ih =>
      intro hl now
      have hl' : ∀ r ∈ l, ∀ t', First (idMap r i) t' → r = p := fun r hr => hl r (List.mem_cons_of_mem _ hr)
      simp only [findTestPlan, recorded]
      cases hf : firstPlan (idMap q i) with
      | none =>
        simp only
        have hne : p ≠ q := by
          rintro rfl
          rw [firstPlan_first.2 ht] at hf
          cases hf
        constructor
        · intro hm
          rcases List.mem_cons.1 hm with h | hm
          · exact absurd h hne
          · exact (ih hl' none).1 hm
        · intro hm
          refine (ih hl' now).2 ?_
          rcases hm with hm | hm
          · rcases List.mem_cons.1 hm with h | hm
            · exact absurd h hne
            · exact .inl hm
          · exact .inr hm
      | some t' =>
        have hq := hl q List.mem_cons_self t' (firstPlan_first.1 hf)
        subst hq
        have := huniq t' (firstPlan_first.1 hf)
        subst this
        exact ⟨fun _ => rfl, fun _ => (ih hl' (some t')).2 (.inr rfl)⟩
  refine ⟨(key providers hone none).1 hp, (key providers hone none).2 (.inl hp), fun t' => ?_⟩
  constructor
  · rintro ⟨i', j, hi, hj, h'⟩
    cases hi
    have hq := hone _ (hjobs j hj) t' h'
    rw [hq] at h'
    exact ⟨huniq t' h', j, hj, hq⟩
  · rintro ⟨rfl, j, hj, rfl⟩
    exact ⟨i, j, rfl, hj, ht⟩

/-- With a pattern to include, or with a test plan, `plainbox dev special` lists what `plainbox run` would choose. -/
theorem C88_listing_partial (rx : Rx) (order : List P → List P) (units : List (Str × Unit' (Job P) Str)) (n : Nat)
    (idMap : P → Str → List (Unit' (Job P) Str)) (a : Args) (jobs : List (Job P))
    (h : a.incl ≠ [] ∨ ∃ c i, a.plan = some (c :: i)) :
    listing rx order units n idMap a jobs = matching rx order units n idMap a jobs := by
  unfold listing
  split
  · next h' => exact h'.symm
  · next l h' =>
    rw [if_neg, h']
    rintro ⟨h1, h2⟩
    rcases h with h | ⟨c, i, h⟩
    · exact h h1
    · rw [h] at h2
      rcases h2 with h2 | h2 <;> cases h2

/-! ## Where the code disagrees -/

/-- Alternatives at top level are anchored on one side only: `-i 'foo|bar'` hits `foobaz`. -/
theorem C88_alternation_violated {setMem : Str → Char → Bool} {rx : Rx} (hrx : Agrees setMem rx) :
    ¬ Full setMem "foo|bar".toList "foobaz".toList ∧ Hits rx "foo|bar".toList "foobaz".toList := by
  refine ⟨Pattern.C30_alternation_violated.2.1, ?_⟩
  have hq : parseRe (['^'] ++ "foo|bar".toList ++ ['$']) =
      some [(.bol, .one) :: Pattern.lits "foo".toList, Pattern.lits "bar".toList ++ [(.eol, .one)]] := rfl
  obtain ⟨hv, hm⟩ := hrx _ "foobaz".toList _ hq
  refine ⟨hv, hm.2 ⟨_, List.mem_cons_self, 3, 0, Pattern.mbol.2 ⟨rfl, rfl⟩, ?_⟩⟩
  exact (Pattern.mseq_lits _ _ _).2 ⟨rfl, by decide⟩

private def jx : Job Nat := ⟨"x".toList, 0⟩
private def jy : Job Nat := ⟨"y".toList, 0⟩

private theorem hits_x {setMem : Str → Char → Bool} {rx : Rx} (hrx : Agrees setMem rx) : Hits rx ['x'] ['x'] := by
  have hp : parseRe ['x'] = some [Pattern.lits ['x']] := rfl
  rw [C88_pattern_partial hrx hp (by decide), Pattern.full_single hp]
  exact (Pattern.mseq_lits _ _ _).2 ⟨rfl, by decide⟩

/-- `-x '('` is only warned about: the job is chosen although the user wrote something to exclude. -/
theorem C88_bad_violated {setMem : Str → Char → Bool} {rx : Rx} (hrx : Agrees setMem rx)
    (hbad : rx.valid "^($".toList = false) (units : List (Str × Unit' (Job Nat) Str)) (n : Nat)
    (idMap : Nat → Str → List (Unit' (Job Nat) Str)) :
    matching rx id units n idMap ⟨none, [['x']], [['(']]⟩ [jx] = .ok [jx] := by
  obtain ⟨hv, hm⟩ := hits_x hrx
  have h1 : around ['x'] = ['^'] ++ ['x'] ++ ['$'] := rfl
  have h2 : around ['('] = "^($".toList := rfl
  simp only [matching, planQualifiers, List.nil_append, List.filterMap_cons, List.filterMap_nil, patternQualifier, h1, h2,
    hv, hbad, if_true, Bool.false_eq_true, if_false, List.append_nil]
  have hmem : ∀ j, j ∈ selectJobs Job.id [jx]
      [Qual.prim ⟨true, .other fun j => rx.mt (['^'] ++ ['x'] ++ ['$']) j.id⟩] ↔ j = jx := by
    intro j
    rw [Narrow.mem_selectJobs (by simp [jx])]
    simp only [flatPrimitives, Qual.primitives, List.append_nil, List.mem_singleton, exists_eq_left, Includes, Excludes,
      Prim.matches, Bool.true_eq_false, and_false, not_false_iff, and_true]
    constructor
    · rintro ⟨h, -⟩; exact h
    · rintro rfl; exact ⟨rfl, hm⟩
  obtain ⟨sel, e1, e2, -, e4⟩ := Qualifiers.C13_select_jobs Job.id [jx] (by simp [jx])
    [Qual.prim ⟨true, .other fun j => rx.mt (['^'] ++ ['x'] ++ ['$']) j.id⟩]
  generalize selectJobs Job.id [jx] [Qual.prim ⟨true, .other fun j => rx.mt (['^'] ++ ['x'] ++ ['$']) j.id⟩] = l at *
  have hsel : sel = [0] := by
    have h0 : ∀ i ∈ sel, i = 0 := by
      intro i hi
      obtain ⟨j, hj, -⟩ := (e2 i).1 hi
      cases i with
      | zero => rfl
      | succ i => simp at hj
    have hne : sel ≠ [] := by
      rintro rfl
      have : jx ∈ l := (hmem jx).2 rfl
      have e : l = [] := by simpa using e1
      rw [e] at this
      cases this
    match sel, h0, hne, e4 with
    | [a], h0, _, _ => rw [h0 a (by simp)]
    | a :: b :: t, h0, _, e4 =>
      have ha := h0 a (by simp)
      have hb := h0 b (by simp)
      subst ha hb
      simp at e4
  rw [hsel] at e1
  have : l.map some = [jx].map some := by simpa using e1
  have := List.map_injective_iff.2 (fun _ _ h => Option.some.inj h) this
  rw [this]

/-- A plan that is not there is not reported: nothing is chosen and the run is over. -/
theorem C88_unknown_violated (rx : Rx) (units : List (Str × Unit' (Job Nat) Str)) (n : Nat) (y : List Str) :
    matching rx id units n (fun _ _ => []) ⟨some "plan".toList, [], y⟩ [jx, jy] =
      .ok (selectJobs Job.id [jx, jy] (y.filterMap (patternQualifier rx false))) ∧
    ∀ j, j ∉ selectJobs Job.id [jx, jy] (y.filterMap (patternQualifier (P := Nat) rx false)) := by
  refine ⟨rfl, fun j hj => ?_⟩
  rw [Narrow.mem_selectJobs (by decide)] at hj
  obtain ⟨-, ⟨p, hp, hi⟩, -⟩ := hj
  rw [mem_patterns] at hp
  obtain ⟨t, -, -, rfl⟩ := hp
  cases hi.2

private def both : Plan (Job Nat) Str := ⟨some [some (.other fun _ => true)], none, none, none, none⟩

/-- A plan in a provider without jobs: it gives the categories and the session remembers it, but nothing is chosen. -/
theorem C88_provider_violated (rx : Rx) :
    let idMap : Nat → Str → List (Unit' (Job Nat) Str) := fun p _ => if p = 1 then [.plan both] else []
    matching rx id [] 9 idMap ⟨some "plan".toList, [], []⟩ [jx, jy] = .ok [] ∧
    findTestPlan idMap [0, 1] (some "plan".toList) = some both ∧
    recorded idMap "plan".toList [0, 1] none = some both := ⟨rfl, rfl, rfl⟩

private def only (s : String) : Plan (Job Nat) Str := ⟨some [some (.idEq s.toList)], none, none, none, none⟩

/-- Two providers with the same plan: the jobs of both are chosen, the categories come from the first and the
session remembers the second. -/
theorem C88_lookup_violated (rx : Rx) :
    let idMap : Nat → Str → List (Unit' (Job Nat) Str) := fun p _ => [.other, .plan (only (if p = 1 then "y" else "x"))]
    let jy' : Job Nat := ⟨"y".toList, 1⟩
    matching rx id [] 9 idMap ⟨some "plan".toList, [], []⟩ [jx, jy'] = .ok [jx, jy'] ∧
    findTestPlan idMap [0, 1] (some "plan".toList) = some (only "x") ∧
    recorded idMap "plan".toList [0, 1] none = some (only "y") := ⟨rfl, rfl, rfl⟩

/-- What is mandatory is not chosen. -/
theorem C88_mandatory_violated (rx : Rx) :
    let t : Plan (Job Nat) Str := ⟨none, none, some [some (.idEq "x".toList)], none, none⟩
    On Job.id t.mand jx ∧
    matching rx id [] 9 (fun _ _ => [.plan t]) ⟨some "plan".toList, [], []⟩ [jx, jy] = .ok [] :=
  ⟨⟨_, _, rfl, List.mem_cons_self, rfl⟩, rfl⟩

/-- What the plan has in the bootstrapping stage, which `plainbox run` does not have, is never chosen, not even when it
is asked for with `-i`. -/
theorem C88_bootstrap_violated {setMem : Str → Char → Bool} {rx : Rx} (hrx : Agrees setMem rx) :
    let t : Plan (Job Nat) Str := ⟨none, none, none, some ["x".toList], none⟩
    Hits rx ['x'] jx.id ∧
    ∃ l, matching rx id [] 9 (fun _ _ => [.plan t]) ⟨some "plan".toList, [['x']], []⟩ [jx, jy] = .ok l ∧ jx ∉ l := by
  intro t
  refine ⟨hits_x hrx, ?_⟩
  obtain ⟨l, hl⟩ : ∃ l, matching rx id [] 9 (fun _ _ => [.plan t]) ⟨some "plan".toList, [['x']], []⟩ [jx, jy] = .ok l :=
    ⟨_, rfl⟩
  refine ⟨l, hl, fun hj => ?_⟩
  obtain ⟨-, -, h, -⟩ := (C88_selected rx (fun _ _ => Iff.rfl) [] 9 _ _ (by decide) hl jx).1 hj
  exact h t ⟨_, jx, rfl, by simp, 0, rfl⟩ ⟨t, .refl t, .inr ⟨_, rfl, by decide⟩⟩

/-- `plainbox dev special -x x` lists `x`. -/
theorem C88_listing_violated {setMem : Str → Char → Bool} {rx : Rx} (hrx : Agrees setMem rx)
    (units : List (Str × Unit' (Job Nat) Str)) (n : Nat) (idMap : Nat → Str → List (Unit' (Job Nat) Str)) :
    Hits rx ['x'] jx.id ∧ listing rx id units n idMap ⟨none, [], [['x']]⟩ [jx, jy] = .ok [jx, jy] :=
  ⟨hits_x hrx, rfl⟩

/-! ## Examples -/

/-- Expressions that are plain text, for the examples. -/
private def plain : Rx := ⟨fun p => p != "^($".toList, fun p id => p == around id⟩

private def sample : Plan (Job Nat) Str :=
  ⟨some [some (.other fun j => j.id.length == 1)], some [some (.idEq "z".toList)], none, none, none⟩

private def named (s : String) (p : Nat) : Job Nat := ⟨s.toList, p⟩

/-- A plan, two patterns to include, one to exclude and one that is not correct. -/
example :
    let jobs := [named "x" 0, named "long" 0, named "y" 1, named "z" 1, named "other" 1]
    matching plain id [] 9 (fun p i => if p = 0 ∧ i = "plan".toList then [.other, .plan sample] else [])
      ⟨some "plan".toList, ["other".toList, "long".toList, "(".toList], ["y".toList, "(".toList]⟩ jobs =
      .ok [named "x" 0, named "other" 1, named "long" 0] ∧ (jobs.map Job.id).Nodup := by
  decide +kernel

/-- Without a plan: the order of the patterns. -/
example :
    matching plain id [] 9 (fun _ _ => []) ⟨none, ["y".toList, "x".toList, "y".toList], []⟩
      [named "x" 0, named "long" 0, named "y" 1] = .ok [named "y" 1, named "x" 0] ∧
    firstHit plain ["y".toList, "x".toList] [named "x" 0, named "long" 0, named "y" 1] 2 = 0 := by
  decide +kernel

/-- An order of a set, and a pattern without alternatives at top level. -/
example : SetOrder (List.reverse (α := Nat)) ∧ ∃ b, parseRe "usb/(a|b).*".toList = some [b] :=
  ⟨fun _ _ => List.mem_reverse, _, rfl⟩

/-- One provider with the plan. -/
example :
    let idMap : Nat → Str → List (Unit' (Job Nat) Str) := fun p _ => if p = 1 then [.other, .plan sample] else []
    First (idMap 1 "plan".toList) sample ∧ (∀ q ∈ [0, 1, 2], ∀ t', First (idMap q "plan".toList) t' → q = 1) ∧
      ∀ j ∈ [named "x" 0, named "y" 1], j.provider ∈ [0, 1, 2] := by
  refine ⟨⟨1, rfl⟩, ?_, by decide⟩
  intro q _ t' h
  have := firstPlan_first.2 h
  by_cases hq : q = 1
  · exact hq
  · simp only [if_neg hq] at this
    cases this

end Verif.Choose
