import Verif.Model.Progress
import Mathlib.Algebra.Order.Field.Basic
import Mathlib.Algebra.Order.Field.Rat
import Mathlib.Algebra.Order.BigOperators.Group.List
import Mathlib.Tactic.Linarith

/-!
# C69: the completion ratio

* `C69_ratio_partial`: with positive estimates for all jobs, the ratio is the share of time done, between 0
  and 1, 1 exactly when all is done and 0 exactly when nothing is.
* `C69_ratio_bounds`: with estimates that are not negative the ratio is always between 0 and 1, and never
  shrinks when a job is done.
* `C69_ratio_missing`: if some job has no estimate, what is counted.
* `C69_ratio_violated`: without estimates or with zero ones, a finished run is not complete; negative estimates lead out
  of the interval.
-/

namespace Verif.Progress

/-- The sum of the estimates that are there. -/
def sumTime (items : List Item) : Rat := (items.filterMap Item.estimate).sum

/-- The jobs done. -/
def doneOf (items : List Item) : List Item := items.filter Item.done

theorem fold_spec : ∀ (items : List Item) (a : Acc),
    (items.foldl step a).totalTime = a.totalTime + sumTime items ∧
    (items.foldl step a).doneTime = a.doneTime + sumTime (doneOf items) ∧
    (items.foldl step a).doneCnt = a.doneCnt + ((doneOf items).filter fun x => x.estimate.isSome).length ∧
    ((items.foldl step a).reliable = true ↔ a.reliable = true ∧ ∀ x ∈ items, x.estimate.isSome = true) := by
  intro items
  induction items with
  | nil => intro a; simp [sumTime, doneOf]
  | cons x items ih =>
    intro a
    obtain ⟨h1, h2, h3, h4⟩ := ih (step a x)
    rw [List.foldl_cons]
    refine ⟨h1.trans ?_, h2.trans ?_, h3.trans ?_, h4.trans ?_⟩
    all_goals
      obtain ⟨e, d⟩ := x
      cases e <;> cases d <;> simp [step, sumTime, doneOf, add_assoc, Nat.add_comm]

theorem ratio_eq (items : List Item) :
    ((∀ x ∈ items, x.estimate.isSome = true) →
      ratio items = if sumTime items = 0 then 0 else sumTime (doneOf items) / sumTime items) ∧
    ((∃ x ∈ items, x.estimate = none) →
      ratio items = (((doneOf items).filter fun x => x.estimate.isSome).length : Rat) / (items.length : Rat)) := by
  obtain ⟨h1, h2, h3, h4⟩ := fold_spec items {}
  simp only [zero_add, true_and] at h1 h2 h3 h4
  constructor
  · intro h
    unfold ratio
    dsimp only
    rw [if_pos (h4.mpr h), h1, h2]
  · rintro ⟨x, hx, he⟩
    have hr : ¬ (items.foldl step {}).reliable = true := by
      rw [h4]
      intro h
      have := h x hx
      rw [he] at this
      cases this
    have hl : items.length ≠ 0 := by
      intro h
      rw [List.length_eq_zero_iff.mp h] at hx
      cases hx
    unfold ratio
    dsimp only
    rw [if_neg hr, if_neg hl, h3]

theorem sum_nonneg_of {items : List Item} (h : ∀ x ∈ items, ∀ t, x.estimate = some t → 0 ≤ t) : 0 ≤ sumTime items := by
  apply List.sum_nonneg
  intro t ht
  obtain ⟨x, hx, he⟩ := List.mem_filterMap.mp ht
  exact h x hx t he

theorem done_le {items : List Item} (h : ∀ x ∈ items, ∀ t, x.estimate = some t → 0 ≤ t) :
    sumTime (doneOf items) ≤ sumTime items := by
  induction items with
  | nil => simp [sumTime, doneOf]
  | cons x items ih =>
    have := ih (fun y hy => h y (List.mem_cons_of_mem _ hy))
    have hx := h x List.mem_cons_self
    obtain ⟨e, d⟩ := x
    cases e <;> cases d <;> simp [sumTime, doneOf] at this hx ⊢ <;> linarith

/-- A run list with an estimate for each job, all positive. -/
def Estimated (items : List Item) : Prop := ∀ x ∈ items, ∃ t, x.estimate = some t ∧ 0 < t

theorem estimated_pos {items : List Item} (h : Estimated items) (hn : items ≠ []) : 0 < sumTime items := by
  cases items with
  | nil => exact absurd rfl hn
  | cons x items =>
    obtain ⟨t, ht, hp⟩ := h x List.mem_cons_self
    have : 0 ≤ sumTime items := sum_nonneg_of (by
      intro y hy u hu
      obtain ⟨v, hv, hvp⟩ := h y (List.mem_cons_of_mem _ hy)
      rw [hv] at hu; cases hu; exact le_of_lt hvp)
    have e : sumTime (x :: items) = t + sumTime items := by simp [sumTime, ht]
    rw [e]
    linarith

theorem split_time (items : List Item) :
    sumTime items = sumTime (doneOf items) + sumTime (items.filter fun x => !x.done) := by
  induction items with
  | nil => simp [sumTime, doneOf]
  | cons x items ih =>
    obtain ⟨e, d⟩ := x
    cases e <;> cases d <;> simp [sumTime, doneOf] at ih ⊢ <;> linarith

/-- With a positive estimate for every job (and at least one job) the ratio is the share of the estimated time
that is done; it is 1 exactly when every job has an outcome and 0 exactly when none has.  Missing: jobs without
an estimate and estimates of zero, see `C69_ratio_violated`. -/
theorem C69_ratio_partial (items : List Item) (h : Estimated items) (hn : items ≠ []) :
    ratio items = sumTime (doneOf items) / sumTime items ∧ 0 ≤ ratio items ∧ ratio items ≤ 1 ∧
    (ratio items = 1 ↔ ∀ x ∈ items, x.done = true) ∧ (ratio items = 0 ↔ ∀ x ∈ items, x.done = false) := by
  have hpos := estimated_pos h hn
  have hnn : ∀ x ∈ items, ∀ t, x.estimate = some t → 0 ≤ t := by
    intro x hx t ht
    obtain ⟨v, hv, hvp⟩ := h x hx
    rw [hv] at ht; cases ht; exact le_of_lt hvp
  have hr : ratio items = sumTime (doneOf items) / sumTime items := by
    rw [(ratio_eq items).1 (by intro x hx; obtain ⟨t, ht, _⟩ := h x hx; rw [ht]; rfl), if_neg (ne_of_gt hpos)]
  have hsub : ∀ {l : List Item}, (∀ x ∈ l, x ∈ items) → l ≠ [] → 0 < sumTime l :=
    fun hl hne => estimated_pos (fun x hx => h x (hl x hx)) hne
  have hd0 : 0 ≤ sumTime (doneOf items) := sum_nonneg_of (fun x hx => hnn x (List.mem_of_mem_filter hx))
  refine ⟨hr, ?_, ?_, ?_, ?_⟩
  · rw [hr]; exact div_nonneg hd0 (le_of_lt hpos)
  · rw [hr, div_le_one hpos]; exact done_le hnn
  · rw [hr, div_eq_one_iff_eq (ne_of_gt hpos)]
    constructor
    · intro he x hx
      cases hd : x.done with
      | true => rfl
      | false =>
        have hne : (items.filter fun x => !x.done) ≠ [] := by
          intro hc
          have : x ∈ (items.filter fun x => !x.done) := List.mem_filter.mpr ⟨hx, by simp [hd]⟩
          rw [hc] at this; cases this
        have := hsub (fun x hx => List.mem_of_mem_filter hx) hne
        have := split_time items
        linarith
    · intro hall
      have : doneOf items = items := List.filter_eq_self.mpr hall
      rw [this]
  · rw [hr, div_eq_zero_iff]
    constructor
    · rintro (he | he)
      · intro x hx
        cases hd : x.done with
        | false => rfl
        | true =>
          have hne : doneOf items ≠ [] := by
            intro hc
            have : x ∈ doneOf items := List.mem_filter.mpr ⟨hx, hd⟩
            rw [hc] at this; cases this
          have hlt : 0 < sumTime (doneOf items) := hsub (fun x hx => List.mem_of_mem_filter hx) hne
          rw [he] at hlt
          exact absurd hlt (lt_irrefl _)
      · rw [he] at hpos
        exact absurd hpos (lt_irrefl _)
    · intro hall
      left
      have : doneOf items = [] := by
        apply List.filter_eq_nil_iff.mpr
        intro x hx; rw [hall x hx]; decide
      rw [this]; rfl

/-- Three jobs, one of them done. -/
def exItems : List Item := [⟨some 2, true⟩, ⟨some 3, false⟩, ⟨some 5, false⟩]

example : Estimated exItems ∧ exItems ≠ [] ∧ ratio exItems = 1 / 5 := by
  refine ⟨?_, by decide, by decide +kernel⟩
  intro x hx
  simp only [exItems, List.mem_cons, List.not_mem_nil, or_false] at hx
  rcases hx with rfl | rfl | rfl
  · exact ⟨2, rfl, by norm_num⟩
  · exact ⟨3, rfl, by norm_num⟩
  · exact ⟨5, rfl, by norm_num⟩

/-- If no estimate is negative, the ratio lies between 0 and 1. -/
theorem C69_ratio_bounds (items : List Item) (h : ∀ x ∈ items, ∀ t, x.estimate = some t → 0 ≤ t) :
    0 ≤ ratio items ∧ ratio items ≤ 1 := by
  by_cases hall : ∀ x ∈ items, x.estimate.isSome = true
  · rw [(ratio_eq items).1 hall]
    have h0 := sum_nonneg_of h
    have h1 : 0 ≤ sumTime (doneOf items) := sum_nonneg_of (fun x hx => h x (List.mem_of_mem_filter hx))
    by_cases hz : sumTime items = 0
    · rw [if_pos hz]; exact ⟨le_refl _, zero_le_one⟩
    · rw [if_neg hz]
      have hp : 0 < sumTime items := lt_of_le_of_ne h0 (Ne.symm hz)
      exact ⟨div_nonneg h1 h0, (div_le_one hp).mpr (done_le h)⟩
  · have hex : ∃ x ∈ items, x.estimate = none := by
      apply Classical.byContradiction
      intro hc
      apply hall
      intro x hx
      cases he : x.estimate with
      | none => exact absurd ⟨x, hx, he⟩ hc
      | some t => rfl
    rw [(ratio_eq items).2 hex]
    have hle : ((doneOf items).filter fun x => x.estimate.isSome).length ≤ items.length :=
      Nat.le_trans (List.length_filter_le _ _) (List.length_filter_le _ _)
    have hle' : (((doneOf items).filter fun x => x.estimate.isSome).length : Rat) ≤ (items.length : Rat) := by
      exact_mod_cast hle
    have hd : (0 : Rat) ≤ (((doneOf items).filter fun x => x.estimate.isSome).length : Rat) := by
      exact_mod_cast Nat.zero_le _
    have hp : (0 : Rat) < (items.length : Rat) := by
      obtain ⟨x, hx, _⟩ := hex
      exact_mod_cast List.length_pos_of_mem hx
    exact ⟨div_nonneg hd (le_of_lt hp), (div_le_one hp).mpr hle'⟩

/-- If a job has no estimate, the ratio counts the jobs done among those that have one, out of all jobs; so it
stays below 1. -/
theorem C69_ratio_missing (items : List Item) (h : ∃ x ∈ items, x.estimate = none) :
    ratio items = ((items.filter fun x => x.done && x.estimate.isSome).length : Rat) / (items.length : Rat) ∧
    ratio items < 1 := by
  have he : (doneOf items).filter (fun x => x.estimate.isSome) = items.filter fun x => x.done && x.estimate.isSome := by
    unfold doneOf
    rw [List.filter_filter]
    apply List.filter_congr
    intro x _
    rw [Bool.and_comm]
  have hr := (ratio_eq items).2 h
  rw [he] at hr
  refine ⟨hr, ?_⟩
  obtain ⟨x, hx, hxn⟩ := h
  have hlt : (items.filter fun x => x.done && x.estimate.isSome).length < items.length := by
    refine Nat.lt_of_le_of_ne (List.length_filter_le _ _) ?_
    intro hc
    have := List.length_filter_eq_length_iff.mp hc x hx
    rw [hxn] at this
    simp at this
  have hp : (0 : Rat) < (items.length : Rat) := by exact_mod_cast List.length_pos_of_mem hx
  rw [hr, div_lt_one hp]
  exact_mod_cast hlt

example : ∃ x ∈ [Item.mk none true, ⟨some 4, true⟩], x.estimate = none := ⟨_, List.mem_cons_self, rfl⟩

/-- Everything is done, but the session is said to be half complete (an estimate is missing) or not begun (the
estimates are zero, or nothing is to be done); with a negative estimate it is said to be done twice over. -/
theorem C69_ratio_violated :
    ratio [⟨none, true⟩, ⟨some 4, true⟩] = 1 / 2 ∧ ratio [⟨none, true⟩] = 0 ∧ ratio [⟨some 0, true⟩] = 0 ∧
    ratio [] = 0 ∧ ratio [⟨some 2, true⟩, ⟨some (-1), false⟩] = 2 := by
  decide +kernel

end Verif.Progress
