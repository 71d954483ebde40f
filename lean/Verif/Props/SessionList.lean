import Verif.Model.SessionList

/-! # Property C49 -/

namespace Verif.SessionList

/-- What is meant by a session directory. -/
def SessionDir (e : Entry) : Prop :=
  e.isDir = true ∧ e.name.head? ≠ some '.' ∧ ∃ p, e.name = p ++ ".session".toList

theorem isSession_iff (e : Entry) : isSession e = true ↔ SessionDir e := by
  unfold isSession SessionDir
  rw [Bool.and_eq_true, Bool.and_eq_true, List.isSuffixOf_iff_suffix]
  have : (!(['.'].isPrefixOf e.name)) = true ↔ e.name.head? ≠ some '.' := by
    cases h : e.name with
    | nil => simp
    | cons c l => simp [List.isPrefixOf, eq_comm (a := c)]
  rw [this]
  constructor
  · rintro ⟨⟨h1, p, h2⟩, h3⟩; exact ⟨h3, h1, p, h2.symm⟩
  · rintro ⟨h3, h1, p, h2⟩; exact ⟨⟨h1, p, h2.symm⟩, h3⟩

theorem keys_ok (es : List Entry) (h : ∀ e ∈ es, ∃ t, e.mtime = .ok t) :
    ∃ ks, keys es = .ok ks ∧ ks.map (·.2) = es ∧ ∀ k ∈ ks, k.2.mtime = .ok k.1 := by
  induction es with
  | nil => exact ⟨[], rfl, rfl, by simp⟩
  | cons e es ih =>
    obtain ⟨ks, h1, h2, h3⟩ := ih (fun e he => h e (by simp [he]))
    obtain ⟨t, ht⟩ := h e (by simp)
    refine ⟨(t, e) :: ks, by simp [keys, ht, h1], by simp [h2], ?_⟩
    intro k hk
    rcases List.mem_cons.mp hk with rfl | hk
    · exact ht
    · exact h3 k hk

/-- **C49**, when every entry can be examined (no dangling symbolic links among them): the listing
is exactly the session directories, each once, youngest first, ties in directory order. -/
theorem C49_listing_partial (es : List Entry) (h : ∀ e ∈ es, ∃ t, e.mtime = .ok t) :
    ∃ r, getStorageList (.ok es) = .ok r ∧
      (r.map (·.2)).Perm (es.filter isSession) ∧
      (∀ e, e ∈ r.map (·.2) ↔ e ∈ es ∧ SessionDir e) ∧
      (∀ k ∈ r, k.2.mtime = .ok k.1) ∧
      r.Pairwise (fun a b => b.1 ≤ a.1) ∧
      (∀ t, (r.filter fun k => decide (k.1 = t)).map (·.2) =
        (es.filter isSession).filter fun e => match e.mtime with
          | .ok t' => decide (t' = t)
          | .error _ => false) := by
  obtain ⟨ks, h1, h2, h3⟩ := keys_ok es h
  have htr : ∀ a b c : Nat × Entry, decide (b.1 ≤ a.1) = true → decide (c.1 ≤ b.1) = true →
      decide (c.1 ≤ a.1) = true := by
    intro a b c; simp only [decide_eq_true_eq]; omega
  have htot : ∀ a b : Nat × Entry, (decide (b.1 ≤ a.1) || decide (a.1 ≤ b.1)) = true := by
    intro a b; simp only [Bool.or_eq_true, decide_eq_true_eq]; omega
  have hperm := List.mergeSort_perm ks fun a b => decide (b.1 ≤ a.1)
  have hres : getStorageList (.ok es) =
      .ok ((ks.mergeSort fun a b => decide (b.1 ≤ a.1)).filter fun k => isSession k.2) := by
    simp [getStorageList, Except.bind, h1]
  have hp2 : ((((ks.mergeSort fun a b => decide (b.1 ≤ a.1)).filter
      fun k => isSession k.2)).map (·.2)).Perm (es.filter isSession) := by
    have := (hperm.filter fun k => isSession k.2).map (·.2)
    refine this.trans ?_
    rw [← h2, List.filter_map]
    exact List.Perm.refl _
  refine ⟨_, hres, hp2, ?_, ?_, ?_, ?_⟩
  · intro e
    rw [hp2.mem_iff, List.mem_filter, isSession_iff]
  · intro k hk
    exact h3 k (hperm.mem_iff.mp (List.mem_filter.mp hk).1)
  · have := List.pairwise_mergeSort htr htot ks
    exact (this.imp (by intro a b hab; simpa using hab)).filter _
  · intro t
    have hst : (ks.mergeSort fun a b => decide (b.1 ≤ a.1)).filter (fun k => decide (k.1 = t)) =
        ks.filter fun k => decide (k.1 = t) := by
      have hsub : (ks.filter fun k => decide (k.1 = t)).Sublist
          (ks.mergeSort fun a b => decide (b.1 ≤ a.1)) := by
        refine List.sublist_mergeSort htr htot ?_ List.filter_sublist
        rw [List.pairwise_iff_forall_sublist]
        intro a b hab
        have ha := hab.subset (List.mem_cons_self)
        have hb := hab.subset (List.mem_cons_of_mem _ (List.mem_singleton.mpr rfl))
        simp only [List.mem_filter, decide_eq_true_eq] at *
        omega
      have := hsub.filter fun k => decide (k.1 = t)
      rw [List.filter_filter] at this
      simp only [Bool.and_self] at this
      exact (this.eq_of_length ((hperm.filter _).length_eq).symm).symm
    rw [List.filter_filter]
    have : ∀ l : List (Nat × Entry), l.filter (fun k => decide (k.1 = t) && isSession k.2) =
        (l.filter fun k => decide (k.1 = t)).filter fun k => isSession k.2 := by
      intro l; rw [List.filter_filter]; congr 1; funext k; rw [Bool.and_comm]
    rw [this, hst, ← h2]
    rw [List.filter_filter, List.filter_filter, List.filter_map]
    congr 1
    apply List.filter_congr
    intro k hk
    simp only [Function.comp_apply]
    rw [h3 k hk, Bool.and_comm]

/-- **C49** for the other outcomes: a missing directory lists nothing, another error is raised. -/
theorem C49_errors : getStorageList (.error .enoent) = .ok [] ∧
    getStorageList (.error .other) = .error .other := ⟨rfl, rfl⟩

/-- **C49** is false as stated: one dangling symbolic link in the directory, of whatever name, hides
every session (storage.py:90-97). -/
theorem C49_violated (e : Entry) (he : e.mtime = .error .enoent) (es : List Entry)
    (h : ∀ e ∈ es, ∃ t, e.mtime = .ok t) : getStorageList (.ok (es ++ [e])) = .ok [] := by
  have : keys (es ++ [e]) = .error .enoent := by
    induction es with
    | nil => simp [keys, he]
    | cons a es ih =>
      obtain ⟨t, ht⟩ := h a (by simp)
      simp [keys, ht, ih (fun e he => h e (by simp [he]))]
  simp [getStorageList, Except.bind, this]

def exDir : List Entry :=
  [⟨"a.session".toList, .ok 5, true⟩, ⟨".b.session".toList, .ok 9, true⟩,
   ⟨"c.session".toList, .ok 7, true⟩, ⟨"d.session".toList, .ok 8, false⟩,
   ⟨"e.session".toList, .ok 5, true⟩]

example : ∀ e ∈ exDir, ∃ t, e.mtime = .ok t := by
  intro e he
  simp only [exDir, List.mem_cons, List.not_mem_nil, or_false] at he
  rcases he with rfl | rfl | rfl | rfl | rfl <;> exact ⟨_, rfl⟩
example : exDir.filter isSession =
    [⟨"a.session".toList, .ok 5, true⟩, ⟨"c.session".toList, .ok 7, true⟩,
     ⟨"e.session".toList, .ok 5, true⟩] := rfl
example : (getStorageList (.ok exDir)) = .ok [(7, ⟨"c.session".toList, .ok 7, true⟩),
    (5, ⟨"a.session".toList, .ok 5, true⟩), (5, ⟨"e.session".toList, .ok 5, true⟩)] := by
  simp [getStorageList, Except.bind, exDir, keys, List.mergeSort, List.MergeSort.Internal.splitInTwo,
    isSession]
  decide

end Verif.SessionList
