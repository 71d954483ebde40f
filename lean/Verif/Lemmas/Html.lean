import Verif.Model.Html
import Verif.Lemmas.Sort
import Verif.Lemmas.Assoc
import Verif.Props.Checksum
import Verif.Props.Stats

/-! # Lemmas about the HTML report -/

namespace Verif.Html

attribute [-instance] List.instBEq

open Verif.Checksum (Str dictSet)
open Verif.Session (Outcome)
open Verif.Junit (escape escapeChar number)

/-! ## Tables -/

/-- Taking the elements of each class together. -/
theorem flatMap_classes {α K : Type} [DecidableEq K] (f : α → K) (p : α → Bool) (l : List α) :
    ∀ ks : List K, ks.Nodup →
      (ks.flatMap fun k => l.filter fun x => p x && decide (f x = k)).Perm
        (l.filter fun x => p x && decide (f x ∈ ks))
  | [], _ => by simp
  | k :: ks, h => by
    rw [List.flatMap_cons]
    refine ((flatMap_classes f p l ks (List.nodup_cons.1 h).2).append_left _).trans ?_
    have hk := (List.nodup_cons.1 h).1
    simp only [List.mem_cons]
    induction l with
    | nil => simp
    | cons x l ih =>
      by_cases hp : p x = true
      · by_cases hx : f x = k
        · simp only [List.filter_cons, hp, hx, Bool.true_and, decide_true, if_true, true_or, List.cons_append]
          rw [if_neg (by simpa using hk)]
          exact ih.cons x
        · by_cases hm : f x ∈ ks
          · simp only [List.filter_cons, hp, hx, hm, Bool.true_and, decide_true, decide_false, if_true, or_true,
              Bool.false_eq_true, if_false]
            exact (List.perm_middle).trans (ih.cons x)
          · simp only [List.filter_cons, hp, hx, hm, Bool.true_and, decide_false, or_false, Bool.false_eq_true, if_false]
            exact ih
      · simp only [List.filter_cons, hp, Bool.false_and, Bool.false_eq_true, if_false]
        exact ih

theorem lookup_fold (us : List (Str × Str)) (m : List (Str × Str)) (hm : (m.map (·.1)).Nodup) :
    ((us.foldl (fun m u => dictSet u.1 u.2 m) m).map (·.1)).Nodup := by
  induction us generalizing m with
  | nil => exact hm
  | cons u us ih => exact ih _ (Assoc.nodup_dictSet _ _ _ hm)

theorem keys_fold (us : List (Str × Str)) (m : List (Str × Str)) (k : Str) :
    k ∈ (us.foldl (fun m u => dictSet u.1 u.2 m) m).map (·.1) ↔ k ∈ m.map (·.1) ∨ k ∈ us.map (·.1) := by
  induction us generalizing m with
  | nil => simp
  | cons u us ih =>
    rw [List.foldl_cons, ih]
    have : k ∈ (dictSet u.1 u.2 m).map (·.1) ↔ k = u.1 ∨ k ∈ m.map (·.1) := by
      clear ih
      induction m with
      | nil => simp [dictSet]
      | cons x m ih =>
        obtain ⟨a, b⟩ := x
        simp only [dictSet]
        split
        · rename_i h
          simp [h]
        · simp only [List.map_cons, List.mem_cons, ih]
          constructor
          · rintro (h | h | h)
            · exact .inr (.inl h)
            · exact .inl h
            · exact .inr (.inr h)
          · rintro (h | h | h)
            · exact .inr (.inl h)
            · exact .inl h
            · exact .inr (.inr h)
    rw [this, List.map_cons, List.mem_cons]
    constructor
    · rintro ((h | h) | h)
      · exact .inr (.inl h)
      · exact .inl h
      · exact .inr (.inr h)
    · rintro (h | h | h)
      · exact .inl (.inr h)
      · exact .inl (.inl h)
      · exact .inr h

theorem categoryMap_nodup (s : State) : ((categoryMap s).map (·.1)).Nodup := lookup_fold _ _ .nil

theorem mem_categoryMap (s : State) (k : Str) : k ∈ (categoryMap s).map (·.1) ↔
    k ∈ s.units.map (·.1) ∧ ∃ i ∈ s.items, isTest i = true ∧ i.category = k := by
  rw [categoryMap, keys_fold]
  simp only [List.map_nil, List.not_mem_nil, false_or, List.mem_map, List.mem_filter, List.any_eq_true, beq_iff_eq]
  constructor
  · rintro ⟨u, ⟨hu, i, ⟨hi, ht⟩, hc⟩, rfl⟩
    exact ⟨⟨u, hu, rfl⟩, i, hi, ht, hc⟩
  · rintro ⟨⟨u, hu, rfl⟩, i, hi, ht, hc⟩
    exact ⟨u, ⟨hu, i, ⟨hi, ht⟩, hc⟩, rfl⟩

theorem categories_perm (lower : Str → Str) (s : State) : (categories lower s).Perm (categoryMap s) := Sort.sortBy_perm _

theorem sorted_perm (lower : Str → Str) (s : State) : (sorted lower s).Perm s.items := Sort.sortBy_perm _

theorem testsIn_eq (lower : Str → Str) (s : State) (c : Str) :
    testsIn lower s c = (sorted lower s).filter fun i => isTest i && decide (i.category = c) := by
  rw [testsIn]
  congr 1
  funext i
  rw [isTest, Bool.eq_iff_iff]
  simp only [Bool.and_eq_true, decide_eq_true_iff]
  constructor
  · rintro ⟨a, b, c, d⟩
    exact ⟨⟨a, c, d⟩, b⟩
  · rintro ⟨⟨a, c, d⟩, b⟩
    exact ⟨a, b, c, d⟩

/-- The tests in the tables of all categories. -/
theorem tests_perm (lower : Str → Str) (s : State) :
    ((categories lower s).flatMap fun c => testsIn lower s c.1).Perm
      (s.items.filter fun i => isTest i && decide (i.category ∈ s.units.map (·.1))) := by
  have h1 : ((categories lower s).flatMap fun c => testsIn lower s c.1) =
      ((categories lower s).map (·.1)).flatMap fun c => (sorted lower s).filter fun i => isTest i && decide (i.category = c) := by
    rw [List.flatMap_map]
    congr 1
    funext c
    exact testsIn_eq lower s c.1
  have hn : ((categories lower s).map (·.1)).Nodup :=
    ((categories_perm lower s).map (·.1)).nodup_iff.2 (categoryMap_nodup s)
  rw [h1]
  refine (flatMap_classes Item.category isTest (sorted lower s) _ hn).trans ?_
  refine ((sorted_perm lower s).filter _).trans ?_
  refine List.Perm.of_eq (List.filter_congr fun i hi => ?_)
  rw [Bool.eq_iff_iff]
  simp only [Bool.and_eq_true, decide_eq_true_iff]
  rw [((categories_perm lower s).map (·.1)).mem_iff, mem_categoryMap]
  constructor
  · rintro ⟨a, b, _⟩
    exact ⟨a, b⟩
  · rintro ⟨a, b⟩
    exact ⟨a, b, i, hi, a, rfl⟩

theorem jobsOf_perm (lower : Str → Str) (s : State) (p : Stats.Plugin) :
    (jobsOf lower s p).Perm (s.items.filter fun i => decide (i.outcome ≠ .none ∧ i.plugin = p)) :=
  (sorted_perm lower s).filter _

/-- Numbering a list and looking at the elements only. -/
theorem zipIdx_flatMap {α β : Type} (f : α → List β) (l : List α) (k : Nat) :
    ((l.zipIdx k).flatMap fun p => f p.1) = l.flatMap f := by
  induction l generalizing k with
  | nil => rfl
  | cons x l ih => rw [List.zipIdx_cons, List.flatMap_cons, List.flatMap_cons, ih]

/-! ## Ids -/

theorem number_digit {n : Nat} {c : Char} (h : c ∈ number n) : c.isDigit = true :=
  Nat.isDigit_of_mem_toDigits (by decide) (by decide) h

/-- Where the digits end. -/
theorem digits_split {a b x y : Str} (ha : ∀ c ∈ a, c.isDigit = true) (hb : ∀ c ∈ b, c.isDigit = true)
    (h : a ++ '-' :: x = b ++ '-' :: y) : a = b ∧ x = y := by
  induction a generalizing b with
  | nil =>
    cases b with
    | nil => exact ⟨rfl, (List.cons.inj h).2⟩
    | cons c b =>
      have := (List.cons.inj h).1
      have hc := hb c List.mem_cons_self
      rw [← this] at hc
      exact absurd hc (by decide)
  | cons c a ih =>
    cases b with
    | nil =>
      have := (List.cons.inj h).1
      have hc := ha c List.mem_cons_self
      rw [this] at hc
      exact absurd hc (by decide)
    | cons d b =>
      obtain ⟨h1, h2⟩ := List.cons.inj h
      obtain ⟨h3, h4⟩ := ih (fun c hc => ha c (List.mem_cons_of_mem _ hc)) (fun c hc => hb c (List.mem_cons_of_mem _ hc)) h2
      exact ⟨by rw [h1, h3], h4⟩

theorem testPage_inj {m n m' n' : Nat} (h : testPage m n = testPage m' n') : m = m' ∧ n = n' := by
  simp only [testPage, List.append_assoc] at h
  obtain ⟨h1, h2⟩ := digits_split (a := number m) (b := number m') (x := number n ++ "-log".toList)
    (y := number n' ++ "-log".toList) (fun c => number_digit) (fun c => number_digit) h
  obtain ⟨h3, _⟩ := digits_split (a := number n) (b := number n') (x := "log".toList)
    (y := "log".toList) (fun c => number_digit) (fun c => number_digit) h2
  exact ⟨Checksum.digits_inj h1, Checksum.digits_inj h3⟩

theorem page_inj (pre : Str) {n n' : Nat} (h : pre ++ number n ++ "-log".toList = pre ++ number n' ++ "-log".toList) :
    n = n' := by
  rw [List.append_assoc, List.append_assoc] at h
  obtain ⟨h3, _⟩ := digits_split (a := number n) (b := number n') (x := "log".toList)
    (y := "log".toList) (fun c => number_digit) (fun c => number_digit) (List.append_cancel_left h)
  exact Checksum.digits_inj h3

theorem number_ne_nil (n : Nat) : number n ≠ [] := Nat.toDigits_ne_nil

/-- The id of the page of a test begins with a digit. -/
theorem testPage_head (m n : Nat) : ∃ c l, testPage m n = c :: l ∧ c.isDigit = true := by
  cases h : number m with
  | nil => exact absurd h (number_ne_nil m)
  | cons c l =>
    exact ⟨c, _, by rw [testPage, h]; rfl, number_digit (n := m) (by rw [h]; exact List.mem_cons_self)⟩

theorem no_colon_number (n : Nat) : ':' ∉ number n := fun h => absurd (number_digit h) (by decide)

end Verif.Html
