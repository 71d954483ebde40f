import Verif.Model.Select

/-!
# C42: selecting providers

* `C42_members_partial`, `C42_useless`, `C42_start`: a first attempt.
* `C42_retry_exact`, `C42_retry_violated`: what is left of attempts that raised.
-/

namespace Verif.Select

variable {P Pat : Type} [DecidableEq P]

theorem take_spec (test : P → Bool) (copy done sel : List P) :
    take test copy (done.filter (fun p => !test p) ++ copy) sel =
      ((done ++ copy).filter (fun p => !test p), sel ++ copy.filter test) := by
  induction copy generalizing done sel with
  | nil => simp [take]
  | cons p copy ih =>
    simp only [take]
    split
    · rename_i h
      have e : (done.filter (fun p => !test p) ++ p :: copy).erase p = (done ++ [p]).filter (fun p => !test p) ++ copy := by
        rw [List.erase_append_right]
        · simp [h]
        · simp [h]
      rw [e, ih]
      simp [h]
    · rename_i h
      have e : done.filter (fun p => !test p) ++ p :: copy = (done ++ [p]).filter (fun p => !test p) ++ copy := by
        simp [h]
      rw [e, ih]
      simp [h]

theorem take_all (test : P → Bool) (l sel : List P) :
    take test l l sel = (l.filter (fun p => !test p), sel ++ l.filter test) := by
  have := take_spec test l [] sel
  simpa using this

theorem patterns_spec (fits : Pat → P → Bool) (pats : List Pat) (l sel : List P) :
    (∃ new, (patterns fits pats l sel).1 = sel ++ new ∧
      ((patterns fits pats l sel).2 = false → ∀ p, new.count p = if pats.any (fits · p) then l.count p else 0) ∧
      (∀ p, new.count p ≤ l.count p)) ∧
    ((patterns fits pats l sel).2 = true ↔ ∃ pre pat post, pats = pre ++ pat :: post ∧
      ∀ p ∈ l, fits pat p = true → ∃ q ∈ pre, fits q p = true) := by
  induction pats generalizing l sel with
  | nil =>
    refine ⟨⟨[], by simp [patterns], by simp, by simp⟩, by simp [patterns]⟩
  | cons pat pats ih =>
    simp only [patterns, take_all]
    split
    · rename_i hany
      obtain ⟨⟨new, h1, h2, h2'⟩, h3⟩ := ih (l.filter (fun p => !fits pat p)) (sel ++ l.filter (fits pat))
      constructor
      · refine ⟨l.filter (fits pat) ++ new, by rw [h1]; simp, ?_, ?_⟩
        · intro hok p
          rw [List.count_append, h2 hok p]
          by_cases hp : fits pat p = true
          · simp [hp, List.count_filter, List.count_eq_zero_of_not_mem]
          · simp only [Bool.not_eq_true] at hp
            have e1 : List.count p (l.filter (fits pat)) = 0 := List.count_eq_zero_of_not_mem (by simp [hp])
            have e2 : List.count p (l.filter fun p => !fits pat p) = List.count p l := List.count_filter (by simp [hp])
            simp only [e1, e2, Nat.zero_add, List.any_cons, hp, Bool.false_or]
        · intro p
          rw [List.count_append]
          have := h2' p
          by_cases hp : fits pat p = true
          · have e1 : List.count p (l.filter (fits pat)) = List.count p l := List.count_filter hp
            have e2 : List.count p (l.filter fun p => !fits pat p) = 0 := List.count_eq_zero_of_not_mem (by simp [hp])
            omega
          · simp only [Bool.not_eq_true] at hp
            have e1 : List.count p (l.filter (fits pat)) = 0 := List.count_eq_zero_of_not_mem (by simp [hp])
            have e2 : List.count p (l.filter fun p => !fits pat p) = List.count p l := List.count_filter (by simp [hp])
            omega
      · rw [h3]
        constructor
        · rintro ⟨pre, q, post, rfl, h⟩
          refine ⟨pat :: pre, q, post, rfl, ?_⟩
          intro p hp hq
          by_cases hf : fits pat p = true
          · exact ⟨pat, by simp, hf⟩
          · obtain ⟨r, hr, hr2⟩ := h p (by simp [hp, hf]) hq
            exact ⟨r, by simp [hr], hr2⟩
        · rintro ⟨pre, q, post, he, h⟩
          cases pre with
          | nil =>
            simp only [List.nil_append, List.cons.injEq] at he
            obtain ⟨rfl, -⟩ := he
            rw [List.any_eq_true] at hany
            obtain ⟨p, hp, hf⟩ := hany
            obtain ⟨r, hr, _⟩ := h p hp hf
            cases hr
          | cons x pre =>
            simp only [List.cons_append, List.cons.injEq] at he
            obtain ⟨rfl, rfl⟩ := he
            refine ⟨pre, q, post, rfl, ?_⟩
            intro p hp hq
            simp only [List.mem_filter, Bool.not_eq_true'] at hp
            obtain ⟨r, hr, hr2⟩ := h p hp.1 hq
            rcases List.mem_cons.1 hr with rfl | hr
            · rw [hp.2] at hr2; cases hr2
            · exact ⟨r, hr, hr2⟩
    · rename_i hany
      refine ⟨⟨[], by simp, by simp, by simp⟩, fun _ => ⟨[], pat, pats, rfl, ?_⟩, fun _ => rfl⟩
      intro p hp hf
      exact absurd (List.any_eq_true.2 ⟨p, hp, hf⟩) hany

theorem select_spec (plainbox : P → Bool) (fits : Pat → P → Bool) (all : List P) (pats : List Pat) (sel : List P) :
    (∃ new, (select plainbox fits all pats sel).1 = sel ++ new ∧
      ((select plainbox fits all pats sel).2 = false →
        ∀ p, new.count p = if plainbox p || pats.any (fits · p) then all.count p else 0) ∧
      (∀ p, new.count p ≤ all.count p) ∧ (∀ p, plainbox p = true → new.count p = all.count p)) ∧
    ((select plainbox fits all pats sel).2 = true ↔ ∃ pre pat post, pats = pre ++ pat :: post ∧
      ∀ p ∈ all, fits pat p = true → plainbox p = true ∨ ∃ q ∈ pre, fits q p = true) := by
  simp only [select, take_all]
  obtain ⟨⟨new, h1, h2, h2'⟩, h3⟩ := patterns_spec fits pats (all.filter fun p => !plainbox p) (sel ++ all.filter plainbox)
  have cases' : ∀ p, (plainbox p = true ∧ List.count p (all.filter plainbox) = all.count p ∧
      List.count p (all.filter fun p => !plainbox p) = 0) ∨
      (plainbox p = false ∧ List.count p (all.filter plainbox) = 0 ∧
      List.count p (all.filter fun p => !plainbox p) = all.count p) := by
    intro p
    cases hp : plainbox p
    · exact .inr ⟨rfl, List.count_eq_zero_of_not_mem (by simp [hp]), List.count_filter (by simp [hp])⟩
    · exact .inl ⟨rfl, List.count_filter hp, List.count_eq_zero_of_not_mem (by simp [hp])⟩
  constructor
  · refine ⟨all.filter plainbox ++ new, by rw [h1]; simp, ?_, ?_, ?_⟩
    · intro hok p
      rw [List.count_append, h2 hok p]
      rcases cases' p with ⟨a, b, c⟩ | ⟨a, b, c⟩
      · simp [a, b, c]
      · simp [a, b, c]
    · intro p
      rw [List.count_append]
      have := h2' p
      rcases cases' p with ⟨a, b, c⟩ | ⟨a, b, c⟩ <;> omega
    · intro p hp
      rw [List.count_append]
      have := h2' p
      rcases cases' p with ⟨a, b, c⟩ | ⟨a, b, c⟩
      · omega
      · rw [hp] at a; cases a
  · rw [h3]
    constructor
    · rintro ⟨pre, pat, post, rfl, h⟩
      refine ⟨pre, pat, post, rfl, fun p hp hf => ?_⟩
      cases hb : plainbox p
      · exact .inr (h p (by simp [hp, hb]) hf)
      · exact .inl rfl
    · rintro ⟨pre, pat, post, rfl, h⟩
      refine ⟨pre, pat, post, rfl, fun p hp hf => ?_⟩
      simp only [List.mem_filter, Bool.not_eq_true'] at hp
      exact (h p hp.1 hf).resolve_left (by simp [hp.2])

/-! ## C42 -/

/-- **C42**, members: a first attempt that does not raise selects the plainbox providers and those that fit
some pattern, each as often as it is there. -/
theorem C42_members_partial (plainbox : P → Bool) (fits : Pat → P → Bool) (all : List P) (pats : List Pat)
    (h : (select plainbox fits all pats []).2 = false) (p : P) :
    (select plainbox fits all pats []).1.count p =
      if plainbox p = true ∨ ∃ pat ∈ pats, fits pat p = true then all.count p else 0 := by
  obtain ⟨⟨new, h1, h2, -⟩, -⟩ := select_spec plainbox fits all pats []
  rw [h1, List.nil_append, h2 h p]
  simp

/-- **C42**, errors: an attempt (the first or a later one) raises if and only if some pattern fits no
provider but plainbox providers and those that fit an earlier pattern. -/
theorem C42_useless (plainbox : P → Bool) (fits : Pat → P → Bool) (all : List P) (pats : List Pat) (sel : List P) :
    (select plainbox fits all pats sel).2 = true ↔ ∃ pre pat post, pats = pre ++ pat :: post ∧
      ∀ p ∈ all, fits pat p = true → plainbox p = true ∨ ∃ q ∈ pre, fits q p = true :=
  (select_spec plainbox fits all pats sel).2

theorem addAll_iff (l added : List P) (h : added.Nodup) : addAll l added = true ↔ (added ++ l).Nodup := by
  induction l generalizing added with
  | nil => simp [addAll, h]
  | cons p l ih =>
    simp only [addAll]
    split
    · rename_i hp
      simp only [Bool.false_eq_true, false_iff, List.nodup_append, not_and, Classical.not_forall]
      intro _ _
      exact ⟨p, hp, p, by simp, by simp⟩
    · rename_i hp
      rw [ih]
      · simp
      · rw [List.nodup_append]
        refine ⟨h, by simp, ?_⟩
        intro a ha b hb
        simp only [List.mem_singleton] at hb
        subst hb
        exact fun e => hp (e ▸ ha)

/-- **C42**, start: after a first attempt that does not raise, with no provider there twice, the session
accepts all selected providers. -/
theorem C42_start (plainbox : P → Bool) (fits : Pat → P → Bool) (all : List P) (pats : List Pat) (ha : all.Nodup) :
    addAll (select plainbox fits all pats []).1 [] = true := by
  rw [addAll_iff _ _ List.nodup_nil, List.nil_append]
  obtain ⟨⟨new, h1, -, h3, -⟩, -⟩ := select_spec plainbox fits all pats []
  rw [h1, List.nil_append, List.nodup_iff_count]
  intro p
  exact Nat.le_trans (h3 p) (List.nodup_iff_count.1 ha p)

/-- **C42**, repeated attempts: each attempt that raised leaves at least the plainbox providers behind. -/
theorem C42_retry_exact (plainbox : P → Bool) (fits : Pat → P → Bool) (all : List P) (tries : List (List Pat))
    (sel res : List P) (h : attempts plainbox fits all tries sel = some res) (p : P) (hp : plainbox p = true) :
    ∃ n, n ≤ tries.length ∧ 0 < n ∧ res.count p = sel.count p + n * all.count p ∧
      ∀ pats, tries.head? = some pats → (select plainbox fits all pats sel).2 = true → 2 ≤ n := by
  induction tries generalizing sel with
  | nil => simp [attempts] at h
  | cons pats more ih =>
    obtain ⟨⟨new, h1, -, -, h4⟩, -⟩ := select_spec plainbox fits all pats sel
    simp only [attempts] at h
    split at h
    · obtain ⟨n, hn, hpos, he, -⟩ := ih _ h
      refine ⟨n + 1, by simp only [List.length_cons]; omega, by omega, ?_, fun _ _ _ => by omega⟩
      rw [he, h1, List.count_append, h4 p hp, Nat.succ_mul]
      omega
    · rename_i hok
      simp only [Option.some.injEq] at h
      refine ⟨1, by simp, by omega, ?_, ?_⟩
      · rw [← h, h1, List.count_append, h4 p hp, Nat.one_mul]
      · intro q hq hr
        simp only [List.head?_cons, Option.some.injEq] at hq
        subst hq
        exact absurd hr hok

/-- **C42** does not hold for repeated attempts: when there is a plainbox provider, and one always comes
with plainbox, a call corrected after `ValueError` selects it again, and no session can be started. -/
theorem C42_retry_violated (plainbox : P → Bool) (fits : Pat → P → Bool) (all : List P) (p : P) (hp : p ∈ all)
    (hb : plainbox p = true) (pats : List Pat) (more : List (List Pat)) (res : List P)
    (hfail : (select plainbox fits all pats []).2 = true)
    (h : attempts plainbox fits all (pats :: more) [] = some res) : addAll res [] = false := by
  obtain ⟨n, -, -, he, h2⟩ := C42_retry_exact plainbox fits all (pats :: more) [] res h p hb
  have hn := h2 pats rfl hfail
  cases hadd : addAll res []
  · rfl
  · exfalso
    rw [addAll_iff _ _ List.nodup_nil, List.nil_append, List.nodup_iff_count] at hadd
    have h1 := hadd p
    have h3 : 0 < all.count p := List.count_pos_iff.2 hp
    have h4 : 2 * 1 ≤ n * all.count p := Nat.mul_le_mul hn h3
    simp only [List.count_nil, Nat.zero_add] at he
    omega

/-! ### An example -/

/-- Providers are numbers, 0 is the plainbox provider; a pattern is a list of numbers. -/
example :
    select (fun p : Nat => p == 0) (fun (pat : List Nat) p => pat.contains p) [0, 1, 2, 3] [[3, 1], [2]] [] =
      ([0, 1, 3, 2], false) ∧
    select (fun p : Nat => p == 0) (fun (pat : List Nat) p => pat.contains p) [0, 1, 2, 3] [[1, 2], [2]] [] =
      ([0, 1, 2], true) ∧
    attempts (fun p : Nat => p == 0) (fun (pat : List Nat) p => pat.contains p) [0, 1, 2, 3] [[[9]], [[1]]] [] =
      some [0, 0, 1] ∧
    addAll [0, 0, 1] [] = false := by decide

end Verif.Select
