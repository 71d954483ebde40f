import Verif.Lemmas.Overrides
import Verif.Props.Pattern

/-! # C31, C32: overrides and categories -/

set_option linter.unusedSimpArgs false

namespace Verif.Overrides

open Verif.Pattern

/-! ## C31 -/

/-- The override statements that apply to a job and set the field `f`, in test plan order. -/
def applicable (rx : Rx) (plans : List Plan) (id f : Str) : List (Str × Str × Str) :=
  (plans.flatMap stmts).filter fun s => rx.mt s.1 id && decide (s.2.1 = f)

theorem pairwise_tagged {r : Str → Str → Prop} (hr : ∀ a, r a a) {m : OMap}
    (h : (keys m).Pairwise r) : (tagged m).Pairwise fun a b => r a.1 b.1 := by
  induction m with
  | nil => exact .nil
  | cons x m ih =>
    rw [keys_cons, List.pairwise_cons] at h
    have e : tagged (x :: m) = (x.2.map fun fv => (x.1, fv.1, fv.2)) ++ tagged m := by simp [tagged]
    rw [e, List.pairwise_append]
    refine ⟨?_, ih h.2, ?_⟩
    · rw [List.pairwise_map]
      exact List.pairwise_of_forall (fun _ _ => hr _)
    · intro a ha b hb
      obtain ⟨_, _, rfl⟩ := List.mem_map.1 ha
      simp only [tagged, List.mem_flatMap, List.mem_map] at hb
      obtain ⟨y, hy, _, _, rfl⟩ := hb
      exact h.1 y.1 (List.mem_map.2 ⟨y, hy, rfl⟩)

theorem lastVal_flat (rx : Rx) (id f : Str) (m : OMap) :
    lastVal ((m.filter fun x => rx.mt x.1 id).flatMap (·.2)) f =
      (((tagged m).filter fun s => rx.mt s.1 id && decide (s.2.1 = f)).getLast?).map (·.2.2) := by
  unfold lastVal
  have : ((m.filter fun x => rx.mt x.1 id).flatMap (·.2)).filter (fun fv => decide (fv.1 = f)) =
      ((tagged m).filter fun s => rx.mt s.1 id && decide (s.2.1 = f)).map (·.2) := by
    induction m with
    | nil => rfl
    | cons x m ih =>
      have e : tagged (x :: m) = (x.2.map fun fv => (x.1, fv.1, fv.2)) ++ tagged m := by simp [tagged]
      rw [e, List.filter_append, List.map_append, ← ih]
      by_cases hm : rx.mt x.1 id = true
      · rw [List.filter_cons, if_pos hm, List.flatMap_cons, List.filter_append]
        congr 1
        rw [List.filter_map, List.map_map]
        have h1 : ((fun x => x.2) ∘ fun (fv : Str × Str) => (x.1, fv.1, fv.2)) = fun fv => fv := rfl
        rw [h1, List.map_id']
        apply List.filter_congr
        intro fv _
        simp [hm]
      · rw [List.filter_cons, if_neg hm]
        have : ((x.2.map fun fv => (x.1, fv.1, fv.2)).filter
            fun s => rx.mt s.1 id && decide (s.2.1 = f)) = [] := by
          rw [List.filter_eq_nil_iff]
          intro s hs
          obtain ⟨_, _, rfl⟩ := List.mem_map.1 hs
          simp [hm]
        rw [this]; rfl
  rw [this, List.getLast?_map, Option.map_map]
  rfl

/-- C31, the rule the code follows, for every list of test plans and every job: the value of a field
comes from the last applicable statement of one pattern. That pattern is the one, among the patterns
of applicable statements, whose first occurrence is in the latest test plan, ties being broken by the
alphabetical order of the patterns. Fields without an applicable statement keep their value. -/
theorem C31_effective_partial (rx : Rx) (plans : List Plan) (id : Str) (e : Eff)
    (hc : ∀ p ∈ plans, CatOK p)
    (hv : ∀ p ∈ plans, ∀ s ∈ stmts p, rx.valid s.1 = true ∧ Known s.2.1) :
    ∃ e', overrideUpdate rx id e (computeOverrideMap plans) = (e', none) ∧ ∀ f, Known f →
      (applicable rx plans id f = [] → getField e' f = getField e f) ∧
      (applicable rx plans id f ≠ [] → ∃ s ∈ applicable rx plans id f,
        getField e' f = some s.2.2 ∧
        (∀ s' ∈ applicable rx plans id f, Before plans s'.1 s.1) ∧
        ((applicable rx plans id f).filter fun s' => decide (s'.1 = s.1)).getLast? = some s) := by
  have inv := inv_compute hc
  generalize computeOverrideMap plans = m at inv
  have hmem : ∀ s, s ∈ tagged m ↔ s ∈ plans.flatMap stmts := by
    intro s
    have := inv.tags s.1
    constructor
    · intro h
      have : s ∈ (tagged m).filter (fun x => decide (x.1 = s.1)) := by simp [h]
      rw [inv.tags] at this
      exact (List.mem_filter.1 this).1
    · intro h
      have : s ∈ (plans.flatMap stmts).filter (fun x => decide (x.1 = s.1)) := by
        exact List.mem_filter.2 ⟨h, by simp⟩
      rw [← inv.tags] at this
      exact (List.mem_filter.1 this).1
  have hall : ∀ s ∈ tagged m, rx.valid s.1 = true ∧ Known s.2.1 := by
    intro s hs
    obtain ⟨p, hp, hs⟩ := List.mem_flatMap.1 ((hmem s).1 hs)
    exact hv p hp s hs
  have hvalid : ∀ x ∈ m, rx.valid x.1 = true := by
    intro x hx
    have hk := (inv.mem x.1).1 (List.mem_map.2 ⟨x, hx, rfl⟩)
    have : ∀ (ps : List Plan), first ps x.1 < ps.length → ∃ p ∈ ps, x.1 ∈ (stmts p).map (·.1) := by
      intro ps
      induction ps with
      | nil => intro h; simp [first] at h
      | cons p ps ih =>
        intro h
        by_cases hp : x.1 ∈ (stmts p).map (·.1)
        · exact ⟨p, by simp, hp⟩
        · simp only [first, hp, ↓reduceIte, List.length_cons, Nat.add_lt_add_iff_right] at h
          obtain ⟨q, hq, hq'⟩ := ih h
          exact ⟨q, by simp [hq], hq'⟩
    obtain ⟨p, hp, hs⟩ := this plans hk
    obtain ⟨s, hs, hs'⟩ := List.mem_map.1 hs
    exact hs' ▸ (hv p hp s hs).1
  have hknown : ∀ fv ∈ (m.filter fun x => rx.mt x.1 id).flatMap (·.2), Known fv.1 := by
    intro fv hfv
    obtain ⟨x, hx, hfv⟩ := List.mem_flatMap.1 hfv
    have hx := (List.mem_filter.1 hx).1
    exact (hall (x.1, fv.1, fv.2)
      (List.mem_flatMap.2 ⟨x, hx, List.mem_map.2 ⟨fv, hfv, rfl⟩⟩)).2
  obtain ⟨e', he', hg⟩ := applyOverrides_known hknown e
  refine ⟨e', by rw [overrideUpdate_flat hvalid, he'], ?_⟩
  intro f hf
  rw [hg f hf, lastVal_flat]
  generalize hN : (tagged m).filter (fun s => rx.mt s.1 id && decide (s.2.1 = f)) = N
  have hMN : ∀ s, s ∈ applicable rx plans id f ↔ s ∈ N := by
    intro s
    rw [← hN, applicable, List.mem_filter, List.mem_filter, hmem]
  have htag : ∀ k, N.filter (fun s => decide (s.1 = k)) =
      (applicable rx plans id f).filter (fun s => decide (s.1 = k)) := by
    intro k
    have h1 : ∀ l : List (Str × Str × Str),
        (l.filter fun s => rx.mt s.1 id && decide (s.2.1 = f)).filter (fun s => decide (s.1 = k)) =
        (l.filter fun s => decide (s.1 = k)).filter fun s => rx.mt s.1 id && decide (s.2.1 = f) := by
      intro l
      rw [List.filter_filter, List.filter_filter]
      apply List.filter_congr
      intro s _
      exact Bool.and_comm _ _
    rw [← hN, applicable, h1, h1, inv.tags]
  constructor
  · intro hnil
    have : N = [] := by
      rw [List.eq_nil_iff_forall_not_mem]
      intro s hs
      rw [← hMN, hnil] at hs
      cases hs
    rw [this]; rfl
  · intro hne
    have hN0 : N ≠ [] := by
      obtain ⟨s, hs⟩ := List.exists_mem_of_ne_nil _ hne
      exact List.ne_nil_of_mem ((hMN s).1 hs)
    have hsplit := List.dropLast_concat_getLast hN0
    generalize hs : N.getLast hN0 = s at hsplit
    have hlast : N.getLast? = some s := by rw [← hs]; exact List.getLast?_eq_some_getLast hN0
    have hsN : s ∈ N := List.mem_of_getLast? hlast
    refine ⟨s, (hMN s).2 hsN, by rw [hlast]; rfl, ?_, ?_⟩
    · intro s' hs'
      have hp : N.Pairwise fun a b => Before plans a.1 b.1 := by
        rw [← hN]
        exact (pairwise_tagged (r := Before plans)
          (fun a => .inr ⟨rfl, Sort.strLe_refl a⟩) inv.ord).sublist List.filter_sublist
      have hs'N := (hMN s').1 hs'
      rw [← hsplit] at hp hs'N
      rw [List.pairwise_append] at hp
      rcases List.mem_append.1 hs'N with h | h
      · exact hp.2.2 s' h s (by simp)
      · rw [List.mem_singleton.1 h]
        exact .inr ⟨rfl, Sort.strLe_refl _⟩
    · rw [← htag, ← hsplit, List.filter_append]
      simp

/-- C31, the statement as intended, when all the applicable statements for the field use the same
pattern: the last one in test plan order wins. -/
theorem C31_last_wins_partial (rx : Rx) (plans : List Plan) (id f : Str) (e : Eff)
    (hc : ∀ p ∈ plans, CatOK p)
    (hv : ∀ p ∈ plans, ∀ s ∈ stmts p, rx.valid s.1 = true ∧ Known s.2.1) (hf : Known f)
    (hsame : ∀ s ∈ applicable rx plans id f, ∀ s' ∈ applicable rx plans id f, s.1 = s'.1) :
    ∃ e', overrideUpdate rx id e (computeOverrideMap plans) = (e', none) ∧
      getField e' f = (((applicable rx plans id f).getLast?).map (·.2.2)).or (getField e f) := by
  obtain ⟨e', he', h⟩ := C31_effective_partial rx plans id e hc hv
  refine ⟨e', he', ?_⟩
  obtain ⟨h1, h2⟩ := h f hf
  by_cases hne : applicable rx plans id f = []
  · rw [hne, h1 hne]; rfl
  · obtain ⟨s, hs, hg, _, hl⟩ := h2 hne
    have : (applicable rx plans id f).filter (fun s' => decide (s'.1 = s.1)) =
        applicable rx plans id f := by
      rw [List.filter_eq_self]
      intro s' hs'
      simpa using hsame s' hs' s hs
    rw [this] at hl
    rw [hl, hg]; rfl

/-- C31: applying the overrides again changes nothing, and raises the same exception if one was
raised. -/
theorem C31_idempotent (rx : Rx) (id : Str) (e : Eff) (m : OMap) :
    overrideUpdate rx id (overrideUpdate rx id e m).1 m = overrideUpdate rx id e m := by
  obtain ⟨l, x, hk, h⟩ := overrideUpdate_run rx id m
  rw [h e, h]
  simp only
  rw [applyOverrides_twice hk]

/-- C31: updating all the jobs is updating each of them, so that a job that is added later gets the
values it would have had. -/
theorem C31_bulk (rx : Rx) (m : OMap) (l : List (Str × Eff)) (h : (bulkUpdate rx m l).2 = none) :
    (bulkUpdate rx m l).1 = l.map (fun x => (x.1, (overrideUpdate rx x.1 x.2 m).1)) ∧
    ∀ x ∈ l, (overrideUpdate rx x.1 x.2 m).2 = none := by
  induction l with
  | nil => simp [bulkUpdate]
  | cons x l ih =>
    obtain ⟨id, e⟩ := x
    generalize hr : overrideUpdate rx id e m = r
    obtain ⟨e1, x⟩ := r
    cases x with
    | some x => simp [bulkUpdate, hr] at h
    | none =>
      simp only [bulkUpdate, hr] at h ⊢
      obtain ⟨h1, h2⟩ := ih h
      refine ⟨by simp [h1, hr], ?_⟩
      intro y hy
      rcases List.mem_cons.1 hy with rfl | hy
      · simp [hr]
      · exact h2 y hy

/-- C31: bulk updates are idempotent as well. -/
theorem C31_bulk_idempotent (rx : Rx) (m : OMap) (l : List (Str × Eff)) :
    bulkUpdate rx m (bulkUpdate rx m l).1 = bulkUpdate rx m l := by
  induction l with
  | nil => rfl
  | cons x l ih =>
    obtain ⟨id, e⟩ := x
    have hi := C31_idempotent rx id e m
    generalize hr : overrideUpdate rx id e m = r at hi
    obtain ⟨e1, x⟩ := r
    cases x with
    | some x => simp only [bulkUpdate, hr]; simp only [bulkUpdate, hi]
    | none => simp only [bulkUpdate, hr]; simp only [bulkUpdate, hi, ih]

/-- C31: when an update raises, the jobs before are updated, the job it raised for has what was applied
until then, the jobs behind it are as before; no job is lost. -/
theorem C31_bulk_raised (rx : Rx) (m : OMap) (l : List (Str × Eff)) (x : Exc)
    (h : (bulkUpdate rx m l).2 = some x) :
    ∃ pre id e post, l = pre ++ (id, e) :: post ∧ (overrideUpdate rx id e m).2 = some x ∧
      (∀ y ∈ pre, (overrideUpdate rx y.1 y.2 m).2 = none) ∧
      (bulkUpdate rx m l).1 = pre.map (fun y => (y.1, (overrideUpdate rx y.1 y.2 m).1)) ++
        (id, (overrideUpdate rx id e m).1) :: post := by
  induction l with
  | nil => simp [bulkUpdate] at h
  | cons y l ih =>
    obtain ⟨id, e⟩ := y
    generalize hr : overrideUpdate rx id e m = r at *
    obtain ⟨e1, z⟩ := r
    cases z with
    | some z =>
      simp only [bulkUpdate, hr, Option.some.injEq] at h ⊢
      exact ⟨[], id, e, l, rfl, by rw [hr, h], by simp, by rw [hr]; rfl⟩
    | none =>
      simp only [bulkUpdate, hr] at h ⊢
      obtain ⟨pre, id', e', post, rfl, h1, h2, h3⟩ := ih h
      refine ⟨(id, e) :: pre, id', e', post, rfl, h1, ?_, ?_⟩
      · intro y hy
        rcases List.mem_cons.1 hy with rfl | hy
        · simp [hr]
        · exact h2 y hy
      · rw [h3]; simp [hr]

/-- An update that raises for the second of three jobs: a field nobody knows. -/
example : bulkUpdate ⟨fun _ => true, fun p i => decide (p = i)⟩
    [(['b'], [("category_id".toList, ['c']), (['?'], ['v'])])]
    [(['a'], .initial), (['b'], .initial), (['c'], .initial)] =
    ([(['a'], .initial), (['b'], ⟨some ['c'], none, none⟩), (['c'], .initial)], some .attributeError) := by
  decide +kernel

/-- C31, what a user of a fresh job state sees: with one pattern for the field the value of the last
applicable statement, and the value of the job definition only when there is no such statement. -/
theorem C31_seen_partial (rx : Rx) (plans : List Plan) (id f : Str) (jobValue : Option Str)
    (hc : ∀ p ∈ plans, CatOK p)
    (hv : ∀ p ∈ plans, ∀ s ∈ stmts p, rx.valid s.1 = true ∧ Known s.2.1) (hf : Known f)
    (hsame : ∀ s ∈ applicable rx plans id f, ∀ s' ∈ applicable rx plans id f, s.1 = s'.1) :
    ∃ e', overrideUpdate rx id .initial (computeOverrideMap plans) = (e', none) ∧
      (∀ s, (applicable rx plans id f).getLast? = some s → effective (getField e' f) jobValue = some s.2.2) ∧
      (applicable rx plans id f = [] → effective (getField e' f) jobValue = jobValue) := by
  obtain ⟨e', he, hg⟩ := C31_last_wins_partial rx plans id f .initial hc hv hf hsame
  refine ⟨e', he, ?_, ?_⟩
  · intro s hs
    rw [hg, hs]; rfl
  · intro hn
    have h0 : getField .initial f = none := by
      unfold getField Eff.initial
      repeat' split
      all_goals rfl
    rw [hg, hn, h0]; rfl

/-- The engine agrees with the meaning of regular expressions given in `Pattern`. -/
def Agrees (setMem : Str → Char → Bool) (rx : Rx) : Prop :=
  ∀ p id bs, parseRe p = some bs → rx.valid p = true ∧ (rx.mt p id = true ↔ reMatch setMem id bs)

open Classical in
/-- Such an engine exists. -/
example (setMem : Str → Char → Bool) : ∃ rx, Agrees setMem rx :=
  ⟨⟨fun _ => true, fun p id => decide (∃ bs, parseRe p = some bs ∧ reMatch setMem id bs)⟩, by
    intro p id bs h
    refine ⟨rfl, ?_⟩
    simp only [decide_eq_true_eq, h, Option.some.injEq, exists_eq_left']⟩

section Witness

variable {setMem : Str → Char → Bool} {rx : Rx} (hrx : Agrees setMem rx)

private def fld : Str := "certification-status".toList
private def fldU : Str := "certification_status".toList

/-- The pattern `a`, the pattern `.` and what they become. -/
private theorem pat_a : patternOf (some ['n']) ['a'] = "^n::a$".toList := rfl
private theorem pat_dot : patternOf (some ['n']) ['.'] = "^n::.$".toList := rfl

include hrx in
private theorem mt_a : rx.valid "^n::a$".toList = true ∧ rx.mt "^n::a$".toList "n::a".toList = true := by
  have hp : parseRe "^n::a$".toList =
      some [(.bol, .one) :: (lits "n::a".toList ++ [(.eol, .one)])] := rfl
  refine ⟨(hrx _ [] _ hp).1, (hrx _ _ _ hp).2.2 ⟨_, List.mem_cons_self, 4, 0, mbol.2 ⟨rfl, rfl⟩, ?_⟩⟩
  rw [mseq_append]
  exact ⟨4, (mseq_lits _ _ _).2 ⟨rfl, by decide⟩, 4, meol.2 ⟨.inl rfl, rfl⟩, rfl⟩

include hrx in
private theorem mt_dot :
    rx.valid "^n::.$".toList = true ∧ rx.mt "^n::.$".toList "n::a".toList = true := by
  have hp : parseRe "^n::.$".toList =
      some [(.bol, .one) :: (lits "n::".toList ++ [(.any, .one), (.eol, .one)])] := rfl
  refine ⟨(hrx _ [] _ hp).1, (hrx _ _ _ hp).2.2 ⟨_, List.mem_cons_self, 4, 0, mbol.2 ⟨rfl, rfl⟩, ?_⟩⟩
  rw [mseq_append]
  exact ⟨3, (mseq_lits _ _ _).2 ⟨rfl, by decide⟩, 4, many.2 ⟨⟨'a', rfl, by decide⟩, rfl⟩, 4,
    meol.2 ⟨.inl rfl, rfl⟩, rfl⟩

/-- `include: a certification-status=blocker` and then `. certification-status=non-blocker`. -/
private def planSorted : Plan :=
  .mk (some ['n']) (some [(['a'], [(fld, "blocker".toList)]), (['.'], [(fld, "non-blocker".toList)])])
    none none []

include hrx in
/-- C31 is violated within one test plan: the patterns are applied in alphabetical order, so here the
first statement wins over the second one although both apply. -/
theorem C31_sorted_violated :
    ∃ e', overrideUpdate rx "n::a".toList .initial (computeOverrideMap [planSorted]) = (e', none) ∧
      e'.certificationStatus = some "blocker".toList ∧
      (applicable rx [planSorted] "n::a".toList fldU).getLast? =
        some ("^n::.$".toList, fldU, "non-blocker".toList) := by
  have hm : computeOverrideMap [planSorted] =
      [("^n::.$".toList, [(fldU, "non-blocker".toList)]), ("^n::a$".toList, [(fldU, "blocker".toList)])] := by
    decide +kernel
  have hs : [planSorted].flatMap stmts =
      [("^n::a$".toList, fldU, "blocker".toList), ("^n::.$".toList, fldU, "non-blocker".toList)] := by
    decide +kernel
  obtain ⟨va, ma⟩ := mt_a hrx
  obtain ⟨vd, md⟩ := mt_dot hrx
  refine ⟨⟨none, some "blocker".toList, none⟩, ?_, rfl, ?_⟩
  · rw [hm]
    simp only [overrideUpdate, va, vd, ma, md, Bool.true_eq_false, ↓reduceIte]
    rfl
  · rw [applicable, hs]
    simp only [List.filter_cons, ma, md, decide_true, Bool.and_self, ↓reduceIte, List.filter_nil]
    rfl

/-- The first test plan has `. x=blocker` and `a x=non-blocker`, the second has `. x=blocker`. -/
private def planA : Plan :=
  .mk (some ['n']) (some [(['.'], [(fld, "blocker".toList)]), (['a'], [(fld, "non-blocker".toList)])])
    none none []
private def planB : Plan :=
  .mk (some ['n']) (some [(['.'], [(fld, "blocker".toList)])]) none none []

include hrx in
/-- C31 is violated across test plans: a statement of the first test plan wins over the applicable
statement of the second one, because the second one's pattern occurs in the first test plan. -/
theorem C31_plans_violated :
    ∃ e', overrideUpdate rx "n::a".toList .initial (computeOverrideMap [planA, planB]) = (e', none) ∧
      e'.certificationStatus = some "non-blocker".toList ∧
      applicable rx [planB] "n::a".toList fldU = [("^n::.$".toList, fldU, "blocker".toList)] := by
  have hm : computeOverrideMap [planA, planB] =
      [("^n::.$".toList, [(fldU, "blocker".toList), (fldU, "blocker".toList)]),
       ("^n::a$".toList, [(fldU, "non-blocker".toList)])] := by decide +kernel
  have hs : [planB].flatMap stmts = [("^n::.$".toList, fldU, "blocker".toList)] := by decide +kernel
  obtain ⟨va, ma⟩ := mt_a hrx
  obtain ⟨vd, md⟩ := mt_dot hrx
  refine ⟨⟨none, some "non-blocker".toList, none⟩, ?_, rfl, ?_⟩
  · rw [hm]
    simp only [overrideUpdate, va, vd, ma, md, Bool.true_eq_false, ↓reduceIte]
    rfl
  · rw [applicable, hs]
    simp only [List.filter_cons, ma, md, decide_true, Bool.and_self, ↓reduceIte, List.filter_nil]

/-- A test plan without category overrides, with a nested part that has one. -/
private def planOuter : Plan :=
  .mk (some ['n']) none none none [.mk (some ['n']) none (some [(['c'], ['a'])]) none []]

include hrx in
/-- C31 is violated by nested parts: the category overrides of a nested part are dropped when the
outer test plan has none. -/
theorem C31_nested_violated :
    overrideUpdate rx "n::a".toList .initial (computeOverrideMap [planOuter]) = (.initial, none) ∧
    applicable rx [planOuter] "n::a".toList "category_id".toList =
      [("^n::a$".toList, "category_id".toList, "n::c".toList)] := by
  have hm : computeOverrideMap [planOuter] = [] := by decide +kernel
  have hs : [planOuter].flatMap stmts =
      [("^n::a$".toList, "category_id".toList, "n::c".toList)] := by decide +kernel
  obtain ⟨va, ma⟩ := mt_a hrx
  constructor
  · rw [hm]; rfl
  · rw [applicable, hs]
    simp only [List.filter_cons, ma, decide_true, Bool.and_self, ↓reduceIte, List.filter_nil]

include hrx in
/-- The hypotheses of `C31_effective_partial` hold for `planA` and `planB`, which compete for the
same field with two patterns. -/
example : (∀ p ∈ [planA, planB], CatOK p) ∧
    ∀ p ∈ [planA, planB], ∀ s ∈ stmts p, rx.valid s.1 = true ∧ Known s.2.1 := by
  have va := (mt_a hrx).1
  have vd := (mt_dot hrx).1
  constructor
  · intro p hp q hq hcat r hr
    simp only [List.mem_cons, List.not_mem_nil, or_false] at hp
    rcases hp with rfl | rfl <;>
      · simp only [planA, planB, nodes, nodesL, List.mem_cons, List.not_mem_nil, or_false] at hq
        subst hq
        simp only [nodes, nodesL, List.mem_cons, List.not_mem_nil, or_false] at hr
        subst hr
        rfl
  · intro p hp s hs
    simp only [List.mem_cons, List.not_mem_nil, or_false] at hp
    have ha : stmts planA = [("^n::.$".toList, fldU, "blocker".toList),
        ("^n::a$".toList, fldU, "non-blocker".toList)] := by decide +kernel
    have hb : stmts planB = [("^n::.$".toList, fldU, "blocker".toList)] := by decide +kernel
    rcases hp with rfl | rfl
    · rw [ha] at hs
      simp only [List.mem_cons, List.not_mem_nil, or_false] at hs
      rcases hs with rfl | rfl
      · exact ⟨vd, by decide⟩
      · exact ⟨va, by decide⟩
    · rw [hb] at hs
      simp only [List.mem_cons, List.not_mem_nil, or_false] at hs
      subst hs
      exact ⟨vd, by decide⟩

end Witness

/-! ## C32 -/

/-- The categories of the override statements that match a job, in order. -/
def categories (rx : Rx) (l : List (Str × Str)) (id : Str) : List Str :=
  (l.filter fun s => rx.mt s.2 id).map (·.1)

theorem firstMatch_ok {rx : Rx} {job : Job} {l : List (Str × Str)}
    (hv : ∀ s ∈ l, rx.valid s.2 = true) :
    firstMatch rx job l = .ok ((categories rx l job.id).head?.or job.categoryId) := by
  induction l with
  | nil => simp [firstMatch, categories]
  | cons s l ih =>
    obtain ⟨c, p⟩ := s
    have hp : rx.valid p = true := hv (c, p) (by simp)
    simp only [firstMatch, hp, Bool.true_eq_false, ↓reduceIte, categories, List.filter_cons]
    by_cases hm : rx.mt p job.id = true
    · simp [hm]
    · simp only [hm, ↓reduceIte, Bool.false_eq_true]
      exact ih (fun s hs => hv s (by simp [hs]))

theorem mapOverrides_ok {rx : Rx} {job : Job} {l : List (Str × Str)}
    (hv : ∀ s ∈ l, rx.valid s.2 = true) (c0 : Option Str) :
    mapOverrides rx [job] l [(job.id, c0)] =
      .ok [(job.id, (categories rx l job.id).getLast?.or c0)] := by
  induction l generalizing c0 with
  | nil => simp [mapOverrides, categories]
  | cons s l ih =>
    obtain ⟨c, p⟩ := s
    have hp : rx.valid p = true := hv (c, p) (by simp)
    have ih := fun c0 => ih (fun s hs => hv s (by simp [hs])) c0
    simp only [mapOverrides, mapJobs, hp, Bool.true_eq_false, ↓reduceIte, Except.bind]
    by_cases hm : rx.mt p job.id = true
    · simp only [hm, ↓reduceIte, dictSet, ih, categories, List.filter_cons, List.map_cons,
        List.getLast?_cons]
      cases (List.map (·.1) (List.filter (fun s => rx.mt s.2 job.id) l)).getLast? <;> rfl
    · simp only [hm, ↓reduceIte, ih, categories, List.filter_cons, Bool.false_eq_true]

theorem fold_dict (jobs : List Job) (hn : (jobs.map Job.id).Nodup) (m : List (Str × Option Str))
    (hm : ∀ j ∈ jobs, j.id ∉ m.map Prod.fst) :
    jobs.foldl (fun m j => dictSet m j.id j.categoryId) m = m ++ jobs.map fun j => (j.id, j.categoryId) := by
  have hset : ∀ (m : List (Str × Option Str)) k v, k ∉ m.map Prod.fst → dictSet m k v = m ++ [(k, v)] := by
    intro m k v
    induction m with
    | nil => intro; rfl
    | cons x m ih =>
      intro h
      simp only [List.map_cons, List.mem_cons, not_or] at h
      simp only [dictSet, if_neg (Ne.symm h.1), ih h.2, List.cons_append]
  induction jobs generalizing m with
  | nil => simp
  | cons j jobs ih =>
    simp only [List.map_cons, List.nodup_cons] at hn
    rw [List.foldl_cons, hset m _ _ (hm j (by simp)), ih hn.2]
    · simp
    · intro k hk
      simp only [List.map_append, List.map_cons, List.map_nil, List.mem_append, List.mem_singleton, not_or]
      exact ⟨hm k (by simp [hk]), fun h => hn.1 (h ▸ List.mem_map.2 ⟨k, hk, rfl⟩)⟩

theorem dictSet_map {f : Str → Option Str} {jobs : List Job} {j : Job} (hj : j ∈ jobs)
    (hn : (jobs.map Job.id).Nodup) (v : Option Str) :
    dictSet (jobs.map fun k => (k.id, f k.id)) j.id v =
      jobs.map fun k => (k.id, if k.id = j.id then v else f k.id) := by
  induction jobs with
  | nil => cases hj
  | cons k jobs ih =>
    simp only [List.map_cons, List.nodup_cons] at hn
    simp only [List.map_cons, dictSet]
    by_cases h : k.id = j.id
    · simp only [h, ↓reduceIte, List.cons.injEq, true_and]
      apply List.map_congr_left
      intro i hi
      rw [if_neg]
      intro he
      exact hn.1 (h ▸ he ▸ List.mem_map.2 ⟨i, hi, rfl⟩)
    · rw [if_neg h, if_neg h]
      rcases List.mem_cons.1 hj with rfl | hj
      · exact absurd rfl h
      · rw [ih hj hn.2]

theorem mapJobs_ok {rx : Rx} {p c : Str} (hp : rx.valid p = true) {jobs : List Job}
    (hn : (jobs.map Job.id).Nodup) (todo : List Job) (hs : ∀ j ∈ todo, j ∈ jobs) (f : Str → Option Str) :
    mapJobs rx p c todo (jobs.map fun k => (k.id, f k.id)) = .ok (jobs.map fun k =>
      (k.id, if k.id ∈ todo.map Job.id ∧ rx.mt p k.id = true then some c else f k.id)) := by
  induction todo generalizing f with
  | nil => simp [mapJobs]
  | cons j todo ih =>
    have hj := hs j (by simp)
    have hs' : ∀ j ∈ todo, j ∈ jobs := fun i hi => hs i (by simp [hi])
    simp only [mapJobs, hp, Bool.true_eq_false, ↓reduceIte]
    by_cases hm : rx.mt p j.id = true
    · rw [if_pos hm, dictSet_map hj hn, ih hs' (fun i => if i = j.id then some c else f i)]
      congr 1
      apply List.map_congr_left
      intro k _
      simp only [List.map_cons, List.mem_cons]
      by_cases hk : k.id = j.id
      · simp [hk, hm]
      · simp [hk]
    · rw [if_neg hm, ih hs' f]
      congr 1
      apply List.map_congr_left
      intro k _
      simp only [List.map_cons, List.mem_cons]
      by_cases hk : k.id = j.id
      · simp [hk, hm]
      · simp [hk]

theorem mapAll_ok {rx : Rx} {jobs : List Job} (hn : (jobs.map Job.id).Nodup) {l : List (Str × Str)}
    (hv : ∀ s ∈ l, rx.valid s.2 = true) (f : Str → Option Str) :
    mapOverrides rx jobs l (jobs.map fun k => (k.id, f k.id)) =
      .ok (jobs.map fun k => (k.id, (categories rx l k.id).getLast?.or (f k.id))) := by
  induction l generalizing f with
  | nil => simp [mapOverrides, categories]
  | cons s l ih =>
    obtain ⟨c, p⟩ := s
    have hp : rx.valid p = true := hv (c, p) (by simp)
    simp only [mapOverrides, mapJobs_ok hp hn jobs (fun _ h => h) f, Except.bind]
    refine (ih (fun s hs => hv s (by simp [hs]))
      (fun i => if i ∈ jobs.map Job.id ∧ rx.mt p i = true then some c else f i)).trans ?_
    congr 1
    apply List.map_congr_left
    intro k hk
    have hk' : k.id ∈ jobs.map Job.id := List.mem_map.2 ⟨k, hk, rfl⟩
    simp only [hk', true_and]
    by_cases hm : rx.mt p k.id = true
    · simp only [hm, ↓reduceIte, categories, List.filter_cons, List.map_cons, List.getLast?_cons]
      cases (List.map (·.1) (List.filter (fun s => rx.mt s.2 k.id) l)).getLast? <;> rfl
    · simp only [hm, ↓reduceIte, categories, List.filter_cons, Bool.false_eq_true]

/-- C32: for every list of jobs with different ids the map has exactly one entry for each job, in
order: the category of the last override statement that matches its id, or the one of the job. -/
theorem C32_map (rx : Rx) (ns : Option Str) (ov : List (Option (Str × Str))) (l : List (Str × Str))
    (jobs : List Job) (hn : (jobs.map Job.id).Nodup) (hp : parseCategoryOverrides ns ov = some l)
    (hv : ∀ s ∈ l, rx.valid s.2 = true) :
    getEffectiveCategoryMap rx ns (some ov) jobs =
      .ok (jobs.map fun j => (j.id, (categories rx l j.id).getLast?.or j.categoryId)) := by
  simp only [getEffectiveCategoryMap, hp]
  rw [fold_dict jobs hn [] (by simp), List.nil_append]
  have key : ∀ js : List Job, (js.map Job.id).Nodup →
      ∃ f : Str → Option Str, ∀ j ∈ js, f j.id = j.categoryId := by
    intro js
    induction js with
    | nil => exact fun _ => ⟨fun _ => none, by simp⟩
    | cons j js ih =>
      intro h
      simp only [List.map_cons, List.nodup_cons] at h
      obtain ⟨f, hf⟩ := ih h.2
      refine ⟨fun i => if i = j.id then j.categoryId else f i, ?_⟩
      intro k hk
      rcases List.mem_cons.1 hk with rfl | hk
      · simp
      · have : k.id ≠ j.id := fun e => h.1 (e ▸ List.mem_map.2 ⟨k, hk, rfl⟩)
        simp only [this, ↓reduceIte]; exact hf k hk
  obtain ⟨f, hf⟩ := key jobs hn
  have e : (jobs.map fun j => (j.id, j.categoryId)) = jobs.map fun j => (j.id, f j.id) :=
    List.map_congr_left fun j hj => by rw [hf j hj]
  rw [e, mapAll_ok hn hv]
  congr 1
  apply List.map_congr_left
  intro j hj
  rw [hf j hj]

/-- Two jobs and two statements, of which both apply to the first job and one to the second. -/
example : getEffectiveCategoryMap ⟨fun _ => true, fun p i => decide (p = "^a$".toList) && decide (i = ['a']) ||
      decide (p = "^.$".toList)⟩ none (some [some (['x'], ['a']), some (['y'], ['.'])])
    [⟨['a'], none⟩, ⟨['b'], some ['z']⟩] = .ok [(['a'], some ['y']), (['b'], some ['y'])] := by
  decide +kernel

/-- C32, exactly: with valid overrides the single job function takes the first matching statement,
the map takes the last one, so the two agree just in case these name the same category. -/
theorem C32_agree_iff_partial (rx : Rx) (ns : Option Str) (ov : List (Option (Str × Str)))
    (l : List (Str × Str)) (job : Job) (hp : parseCategoryOverrides ns ov = some l)
    (hv : ∀ s ∈ l, rx.valid s.2 = true) :
    (getEffectiveCategoryMap rx ns (some ov) [job]).map (fun m => m.map (·.2)) =
        (getEffectiveCategory rx ns (some ov) job).map (fun c => [c]) ↔
      (categories rx l job.id).head? = (categories rx l job.id).getLast? := by
  simp only [getEffectiveCategoryMap, getEffectiveCategory, hp, List.foldl_cons, List.foldl_nil,
    dictSet, mapOverrides_ok hv, firstMatch_ok hv, Except.map, List.map_cons, List.map_nil]
  constructor
  · intro h
    simp only [Except.ok.injEq, List.cons.injEq, and_true] at h
    cases hc : categories rx l job.id with
    | nil => rfl
    | cons a t =>
      rw [hc] at h
      have hl : ∃ z, (a :: t).getLast? = some z := ⟨_, List.getLast?_eq_some_getLast (by simp)⟩
      obtain ⟨z, hz⟩ := hl
      rw [hz] at h ⊢
      simpa using h.symm
  · intro h
    rw [h]

/-- C32 holds without overrides, and when the overrides cannot be parsed both raise. -/
theorem C32_other_partial (rx : Rx) (ns : Option Str) (job : Job) :
    getEffectiveCategoryMap rx ns none [job] = .ok [(job.id, job.categoryId)] ∧
    getEffectiveCategory rx ns none job = .ok job.categoryId ∧
    ∀ ov, parseCategoryOverrides ns ov = none →
      getEffectiveCategoryMap rx ns (some ov) [job] = .error .valueError ∧
      getEffectiveCategory rx ns (some ov) job = .error .valueError := by
  refine ⟨rfl, rfl, ?_⟩
  intro ov h
  simp [getEffectiveCategoryMap, getEffectiveCategory, h]

/-- C32 is violated: `apply b to .` after `apply a to a`. -/
theorem C32_violated (setMem : Str → Char → Bool) (rx : Rx) (hrx : Agrees setMem rx) :
    let ov := some [some (['x'], ['a']), some (['y'], ['.'])]
    let job : Job := ⟨"n::a".toList, none⟩
    getEffectiveCategory rx (some ['n']) ov job = .ok (some "n::x".toList) ∧
    getEffectiveCategoryMap rx (some ['n']) ov [job] = .ok [(job.id, some "n::y".toList)] := by
  obtain ⟨va, ma⟩ := mt_a hrx
  obtain ⟨vd, md⟩ := mt_dot hrx
  have hp : parseCategoryOverrides (some ['n']) [some (['x'], ['a']), some (['y'], ['.'])] =
      some [("n::x".toList, "^n::a$".toList), ("n::y".toList, "^n::.$".toList)] := by rfl
  constructor
  · simp only [getEffectiveCategory, hp, firstMatch, va, ma, Bool.true_eq_false, ↓reduceIte]
  · simp only [getEffectiveCategoryMap, hp, mapOverrides, mapJobs, va, ma, vd, md,
      Bool.true_eq_false, ↓reduceIte, Except.bind, List.foldl_cons, List.foldl_nil, dictSet]

/-- C32 is violated by a broken pattern after a matching one: one function raises, the other one
returns. -/
theorem C32_invalid_violated (setMem : Str → Char → Bool) (rx : Rx) (hrx : Agrees setMem rx)
    (hbad : rx.valid "^n::($".toList = false) :
    let ov := some [some (['x'], ['a']), some (['y'], ['('])]
    let job : Job := ⟨"n::a".toList, none⟩
    getEffectiveCategory rx (some ['n']) ov job = .ok (some "n::x".toList) ∧
    getEffectiveCategoryMap rx (some ['n']) ov [job] = .error .reError := by
  obtain ⟨va, ma⟩ := mt_a hrx
  have hp : parseCategoryOverrides (some ['n']) [some (['x'], ['a']), some (['y'], ['('])] =
      some [("n::x".toList, "^n::a$".toList), ("n::y".toList, "^n::($".toList)] := by rfl
  constructor
  · simp only [getEffectiveCategory, hp, firstMatch, va, ma, Bool.true_eq_false, ↓reduceIte]
  · simp only [getEffectiveCategoryMap, hp, mapOverrides, mapJobs, va, ma, hbad,
      Bool.true_eq_false, ↓reduceIte, Except.bind, List.foldl_cons, List.foldl_nil, dictSet]

end Verif.Overrides
