import Verif.Model.Qualifiers
import Mathlib.Data.List.Nodup
import Mathlib.Data.List.Induction

/-! # Properties C12 and C13 -/

set_option linter.unusedSectionVars false
set_option linter.unusedSimpArgs false

namespace Verif.Qualifiers

variable {J I : Type} [DecidableEq I] (idOf : J → I)

/-! ## C12 -/

/-- The rule of C12 over a collection of votes. -/
def VoteRule (vs : List Nat) (v : Nat) : Prop :=
  (EXCLUDE ∈ vs ∧ v = EXCLUDE) ∨
  (EXCLUDE ∉ vs ∧ INCLUDE ∈ vs ∧ v = INCLUDE) ∨
  (EXCLUDE ∉ vs ∧ INCLUDE ∉ vs ∧ v = IGNORE)

theorem VoteRule.congr {vs ws : List Nat} {v w : Nat} (h : ∀ x, x ∈ vs ↔ x ∈ ws)
    (hv : VoteRule vs v) (hw : VoteRule ws w) : v = w := by
  unfold VoteRule at *
  simp only [h] at hv
  grind

theorem foldl_min_spec (vs : List Nat) (a : Nat) :
    (vs.foldl min a = a ∨ vs.foldl min a ∈ vs) ∧ vs.foldl min a ≤ a ∧
      ∀ x ∈ vs, vs.foldl min a ≤ x := by
  induction vs generalizing a with
  | nil => simp
  | cons b vs ih =>
    obtain ⟨h1, h2, h3⟩ := ih (min a b)
    simp only [List.foldl_cons, List.mem_cons, forall_eq_or_imp]
    refine ⟨?_, by omega, by omega, h3⟩
    rcases h1 with h1 | h1
    · rw [h1]
      by_cases hab : a ≤ b
      · left; omega
      · right; left; omega
    · right; right; exact h1

theorem minVote_rule (vs : List Nat) (hv : ∀ v ∈ vs, v ≤ IGNORE) : VoteRule vs (minVote vs) := by
  unfold VoteRule EXCLUDE INCLUDE IGNORE
  cases vs with
  | nil => simp [minVote, IGNORE]
  | cons a vs =>
    obtain ⟨h1, h2, h3⟩ := foldl_min_spec vs a
    have ha : a ≤ 2 := hv a (by simp)
    simp only [minVote]
    generalize hm : vs.foldl min a = m at *
    have hmem : m ∈ a :: vs := by rcases h1 with h1 | h1 <;> simp [h1]
    have hle : ∀ x ∈ a :: vs, m ≤ x := by
      intro x hx
      rcases List.mem_cons.mp hx with rfl | hx
      · exact h2
      · exact h3 x hx
    have h0 : 0 ∈ a :: vs → m = 0 := fun h => by have := hle 0 h; omega
    have h1' : 1 ∈ a :: vs → m ≤ 1 := fun h => hle 1 h
    have hm2 : m ≤ 2 := by omega
    rcases (by omega : m = 0 ∨ m = 1 ∨ m = 2) with h | h | h <;> subst h
    · exact .inl ⟨hmem, rfl⟩
    · exact .inr (.inl ⟨fun h => by have := h0 h; omega, hmem, rfl⟩)
    · exact .inr (.inr ⟨fun h => by have := h0 h; omega, fun h => by have := h1' h; omega, rfl⟩)

theorem prim_vote_le (p : Prim J I) (j : J) : p.vote idOf j ≤ IGNORE := by
  unfold Prim.vote INCLUDE EXCLUDE IGNORE
  split
  · split <;> omega
  · omega

theorem votes_eq (qs : List (Qual J I)) (j : J) : votes idOf qs j = qs.map (·.vote idOf j) := by
  induction qs with
  | nil => rfl
  | cons q qs ih => simp [votes, ih]

theorem flat_eq (qs : List (Qual J I)) : flatPrimitives qs = qs.flatMap Qual.primitives := by
  induction qs with
  | nil => rfl
  | cons q qs ih => simp [flatPrimitives, ih]

theorem VoteRule.le {vs : List Nat} {v : Nat} (h : VoteRule vs v) : v ≤ IGNORE := by
  unfold VoteRule EXCLUDE INCLUDE IGNORE at *
  omega

/-- Votes of groups agree with votes of all members. -/
theorem VoteRule.join {gs : List (List Nat × Nat)} {v : Nat}
    (hg : ∀ g ∈ gs, VoteRule g.1 g.2) (hv : VoteRule (gs.map (·.2)) v) :
    VoteRule (gs.flatMap (·.1)) v := by
  have key : ∀ x, x = EXCLUDE → (x ∈ gs.flatMap (·.1) ↔ x ∈ gs.map (·.2)) := by
    rintro x rfl
    simp only [List.mem_flatMap, List.mem_map]
    constructor
    · rintro ⟨g, hgm, hx⟩
      have := hg g hgm
      refine ⟨g, hgm, ?_⟩
      unfold VoteRule at this
      tauto
    · rintro ⟨g, hgm, hx⟩
      have := hg g hgm
      refine ⟨g, hgm, ?_⟩
      rcases this with ⟨h, _⟩ | ⟨_, _, h⟩ | ⟨_, _, h⟩
      · exact h
      all_goals rw [hx] at h; exact absurd h (by decide)
  have key2 : EXCLUDE ∉ gs.map (·.2) → (INCLUDE ∈ gs.flatMap (·.1) ↔ INCLUDE ∈ gs.map (·.2)) := by
    intro hex
    simp only [List.mem_flatMap, List.mem_map]
    constructor
    · rintro ⟨g, hgm, hx⟩
      have := hg g hgm
      have hne : g.2 ≠ EXCLUDE := fun h => hex (List.mem_map.mpr ⟨g, hgm, h⟩)
      refine ⟨g, hgm, ?_⟩
      unfold VoteRule at this
      tauto
    · rintro ⟨g, hgm, hx⟩
      have := hg g hgm
      refine ⟨g, hgm, ?_⟩
      rcases this with ⟨_, h⟩ | ⟨_, h, _⟩ | ⟨_, _, h⟩
      · rw [hx] at h; exact absurd h (by decide)
      · exact h
      · rw [hx] at h; exact absurd h (by decide)
  unfold VoteRule at hv ⊢
  rw [key _ rfl]
  rcases hv with hv | ⟨h1, h2, h3⟩ | ⟨h1, h2, h3⟩
  · exact .inl hv
  · exact .inr (.inl ⟨h1, (key2 h1).mpr h2, h3⟩)
  · exact .inr (.inr ⟨h1, fun h => h2 ((key2 h1).mp h), h3⟩)

theorem vote_leaves (q : Qual J I) (j : J) :
    VoteRule (q.primitives.map (·.vote idOf j)) (q.vote idOf j) := by
  induction q using Qual.rec (motive_2 := fun qs => ∀ q ∈ qs,
    VoteRule (q.primitives.map (·.vote idOf j)) (q.vote idOf j)) with
  | prim p =>
    have := prim_vote_le idOf p j
    simp only [Qual.primitives, Qual.vote, List.map_cons, List.map_nil]
    unfold VoteRule EXCLUDE INCLUDE IGNORE at *
    simp only [List.mem_singleton]
    omega
  | comp qs ih =>
    simp only [Qual.primitives, Qual.vote, votes_eq, flat_eq]
    have hr := minVote_rule (qs.map (·.vote idOf j)) (by
      intro v hv
      obtain ⟨q, hq, rfl⟩ := List.mem_map.mp hv
      exact (ih q hq).le)
    have := VoteRule.join (gs := qs.map fun q => (q.primitives.map (·.vote idOf j), q.vote idOf j))
      (v := minVote (qs.map (·.vote idOf j))) (by
        intro g hg
        obtain ⟨q, hq, rfl⟩ := List.mem_map.mp hg
        exact ih q hq) (by simpa [Function.comp_def] using hr)
    simpa [List.flatMap_map, List.map_flatMap] using this
  | nil => rename_i hq; simp at hq
  | cons q qs ih1 ih2 =>
    rename_i q' hq'
    rcases List.mem_cons.mp hq' with rfl | h
    · exact ih1
    · exact ih2 q' h

/-- **C12.**  For every finite tree of qualifiers and every job: the vote of a composite follows
the rule over the votes of its members; the vote of any qualifier follows the rule over the votes of
the primitive qualifiers in it; qualifiers made of the same primitives — in any order, grouping or
repetition — cast the same vote; `designates` says whether the vote is to include. -/
theorem C12_composite_vote (j : J) :
    (∀ qs : List (Qual J I), VoteRule (qs.map (·.vote idOf j)) ((Qual.comp qs).vote idOf j)) ∧
    (∀ q : Qual J I, VoteRule (q.primitives.map (·.vote idOf j)) (q.vote idOf j)) ∧
    (∀ q q' : Qual J I, (∀ p, p ∈ q.primitives ↔ p ∈ q'.primitives) →
      q.vote idOf j = q'.vote idOf j) ∧
    (∀ q : Qual J I, q.designates idOf j = true ↔
      (∃ p ∈ q.primitives, p.matches idOf j ∧ p.inclusive) ∧
      ¬ ∃ p ∈ q.primitives, p.matches idOf j ∧ ¬ p.inclusive) := by
  refine ⟨?_, fun q => vote_leaves idOf q j, ?_, ?_⟩
  · intro qs
    simp only [Qual.vote, votes_eq]
    exact minVote_rule _ (by
      intro v hv
      obtain ⟨q, hq, rfl⟩ := List.mem_map.mp hv
      exact (vote_leaves idOf q j).le)
  · intro q q' h
    refine VoteRule.congr ?_ (vote_leaves idOf q j) (vote_leaves idOf q' j)
    intro x
    simp only [List.mem_map, h]
  · intro q
    have hr := vote_leaves idOf q j
    have h1 : INCLUDE ∈ q.primitives.map (·.vote idOf j) ↔
        ∃ p ∈ q.primitives, p.matches idOf j ∧ p.inclusive := by
      simp only [List.mem_map, Prim.vote, INCLUDE, EXCLUDE, IGNORE]
      constructor <;> rintro ⟨p, hp, h⟩ <;> refine ⟨p, hp, ?_⟩ <;> revert h <;>
        cases p.matches idOf j <;> cases p.inclusive <;> simp
    have h0 : EXCLUDE ∈ q.primitives.map (·.vote idOf j) ↔
        ∃ p ∈ q.primitives, p.matches idOf j ∧ ¬ p.inclusive := by
      simp only [List.mem_map, Prim.vote, INCLUDE, EXCLUDE, IGNORE]
      constructor <;> rintro ⟨p, hp, h⟩ <;> refine ⟨p, hp, ?_⟩ <;> revert h <;>
        cases p.matches idOf j <;> cases p.inclusive <;> simp
    unfold VoteRule at hr
    rw [h0, h1] at hr
    unfold Qual.designates
    rw [beq_iff_eq]
    unfold EXCLUDE INCLUDE IGNORE at *
    constructor
    · intro hv; rw [hv] at hr; simp at hr; simpa using ⟨hr.2, hr.1⟩
    · rintro ⟨ha, hb⟩; simp only [ha, hb, false_and, true_and, not_true, not_false_iff] at hr
      simpa using hr

/-! ## C13 -/

/-- Does the primitive include / exclude the job? -/
def Includes (p : Prim J I) (j : J) : Prop := p.matches idOf j = true ∧ p.inclusive = true
def Excludes (p : Prim J I) (j : J) : Prop := p.matches idOf j = true ∧ p.inclusive = false

instance (p : Prim J I) (j : J) : Decidable (Includes idOf p j) := by
  unfold Includes; infer_instance
instance (p : Prim J I) (j : J) : Decidable (Excludes idOf p j) := by
  unfold Excludes; infer_instance

theorem vote_include (p : Prim J I) (j : J) : p.vote idOf j = INCLUDE ↔ Includes idOf p j := by
  unfold Prim.vote Includes INCLUDE EXCLUDE IGNORE
  cases p.matches idOf j <;> cases p.inclusive <;> simp

theorem vote_exclude (p : Prim J I) (j : J) : p.vote idOf j = EXCLUDE ↔ Excludes idOf p j := by
  unfold Prim.vote Excludes INCLUDE EXCLUDE IGNORE
  cases p.matches idOf j <;> cases p.inclusive <;> simp

theorem general_fold (q : Prim J I) (l : List (J × Nat)) (hnd : (l.map (·.2)).Nodup) (s : Sel) :
    l.foldl (fun s x => s.record x.2 (q.vote idOf x.1)) s =
      ⟨s.incl ++ ((l.filter fun x => decide (Includes idOf q x.1 ∧ x.2 ∉ s.incl)).map (·.2)),
       s.excl ++ ((l.filter fun x => decide (Excludes idOf q x.1)).map (·.2))⟩ := by
  induction l generalizing s with
  | nil => simp
  | cons x l ih =>
    simp only [List.map_cons, List.nodup_cons] at hnd
    rw [List.foldl_cons, ih hnd.2]
    have hx : ∀ y ∈ l, y.2 ≠ x.2 := fun y hy h => hnd.1 (List.mem_map.mpr ⟨y, hy, h⟩)
    unfold Sel.record
    rw [List.filter_cons, List.filter_cons]
    by_cases h1 : q.vote idOf x.1 = INCLUDE
    · have hi := (vote_include idOf q x.1).mp h1
      have he : ¬ Excludes idOf q x.1 := by
        rw [← vote_exclude, h1]; decide
      rw [if_pos h1]
      by_cases hm : x.2 ∈ s.incl
      · rw [if_pos hm]; simp [hm, he]
      · rw [if_neg hm]
        simp only [hi, hm, he, not_false_eq_true, and_self, decide_true, decide_false, if_true,
          List.map_cons, List.append_assoc, List.mem_append, List.mem_singleton]
        congr 1
        rw [List.singleton_append]
        congr 3
        apply List.filter_congr
        intro y hy
        simp [hx y hy]
    · have hi : ¬ Includes idOf q x.1 := fun h => h1 ((vote_include idOf q x.1).mpr h)
      rw [if_neg h1]
      by_cases h0 : q.vote idOf x.1 = EXCLUDE
      · have he := (vote_exclude idOf q x.1).mp h0
        rw [if_pos h0]
        simp [hi, he]
      · have he : ¬ Excludes idOf q x.1 := fun h => h0 ((vote_exclude idOf q x.1).mpr h)
        rw [if_neg h0]
        simp [hi, he]

theorem zipIdx_nodup (jobs : List J) : (jobs.zipIdx.map (·.2)).Nodup := by
  rw [List.zipIdx_map_snd]
  exact List.nodup_range'

theorem generalRow_eq (jobs : List J) (q : Prim J I) (s : Sel) : generalRow idOf jobs q s =
      ⟨s.incl ++ ((jobs.zipIdx.filter fun x =>
          decide (Includes idOf q x.1 ∧ x.2 ∉ s.incl)).map (·.2)),
       s.excl ++ ((jobs.zipIdx.filter fun x => decide (Excludes idOf q x.1)).map (·.2))⟩ :=
  general_fold idOf q jobs.zipIdx (zipIdx_nodup jobs) s

theorem filter_unique {α : Type} (p : α → Bool) (l : List α) (a : α) (hl : l.Nodup)
    (ha : a ∈ l) (hp : p a = true) (hu : ∀ b ∈ l, p b = true → b = a) : l.filter p = [a] := by
  induction l with
  | nil => simp at ha
  | cons x l ih =>
    rw [List.nodup_cons] at hl
    rw [List.filter_cons]
    rcases List.mem_cons.mp ha with rfl | ha'
    · rw [if_pos hp]
      congr 1
      rw [List.filter_eq_nil_iff]
      intro b hb hpb
      exact hl.1 (hu b (by simp [hb]) hpb ▸ hb)
    · have hx : ¬ p x = true := fun h => hl.1 ((hu x (by simp) h) ▸ ha')
      rw [if_neg hx]
      exact ih hl.2 ha' (fun b hb => hu b (by simp [hb]))

/-- The short cut for qualifiers that name a job gives what the general path gives. -/
theorem row_eq_general (jobs : List J) (hid : (jobs.map idOf).Nodup) (q : Prim J I) (s : Sel) :
    row idOf jobs s q = generalRow idOf jobs q s := by
  unfold row
  split
  · rename_i v hk
    rw [generalRow_eq]
    have hmatch : ∀ j, q.matches idOf j = decide (v = idOf j) := by
      intro j; simp [Prim.matches, hk]
    have hnd2 : jobs.zipIdx.Nodup := (zipIdx_nodup jobs).of_map _
    cases hix : indexOfId idOf jobs v with
    | none =>
      have hno : ∀ x ∈ jobs.zipIdx, q.matches idOf x.1 = false := by
        intro x hx
        unfold indexOfId at hix
        rw [List.find?_eq_none] at hix
        have := hix x (by simpa using hx)
        rw [hmatch, decide_eq_false_iff_not]
        simp only [decide_eq_true_eq] at this
        exact fun h => this h.symm
      have f1 : (jobs.zipIdx.filter fun x =>
          decide (Includes idOf q x.1 ∧ x.2 ∉ s.incl)) = [] := by
        rw [List.filter_eq_nil_iff]
        intro x hx
        simp [Includes, hno x hx]
      have f2 : (jobs.zipIdx.filter fun x => decide (Excludes idOf q x.1)) = [] := by
        rw [List.filter_eq_nil_iff]
        intro x hx
        simp [Excludes, hno x hx]
      rw [f1, f2]
      simp
    | some x =>
      obtain ⟨j, idx⟩ := x
      simp only
      have hmem : (j, idx) ∈ jobs.zipIdx := by
        have := List.mem_of_find?_eq_some hix
        simpa using this
      have hv : idOf j = v := by
        have := List.find?_some hix
        simpa using this
      have hq : q.matches idOf j = true := by rw [hmatch]; simp [hv]
      have huniq : ∀ y ∈ jobs.zipIdx, q.matches idOf y.1 = true → y = (j, idx) := by
        rintro ⟨j', idx'⟩ hy hm
        rw [hmatch, decide_eq_true_eq] at hm
        simp only at hm
        have e1 : jobs[idx]? = some j := List.mem_zipIdx_iff_getElem?.mp hmem
        have e2 : jobs[idx']? = some j' := List.mem_zipIdx_iff_getElem?.mp hy
        obtain ⟨l1, g1⟩ := List.getElem?_eq_some_iff.mp e1
        obtain ⟨l2, g2⟩ := List.getElem?_eq_some_iff.mp e2
        have : idx' = idx := by
          have hi := (List.nodup_iff_injective_get.mp hid)
            (a₁ := ⟨idx', by simpa using l2⟩) (a₂ := ⟨idx, by simpa using l1⟩)
            (by simp [g1, g2, hv, hm])
          simpa using hi
        subst this
        rw [e1] at e2
        simp at e2
        rw [e2]
      unfold Sel.record
      cases hinc : q.inclusive with
      | true =>
        have hI : Includes idOf q j := ⟨hq, hinc⟩
        have f2 : (jobs.zipIdx.filter fun x => decide (Excludes idOf q x.1)) = [] := by
          rw [List.filter_eq_nil_iff]
          intro x hx
          simp [Excludes, hinc]
        rw [if_pos ((vote_include idOf q j).mpr hI), f2]
        by_cases hin : idx ∈ s.incl
        · have f1 : (jobs.zipIdx.filter fun x =>
              decide (Includes idOf q x.1 ∧ x.2 ∉ s.incl)) = [] := by
            rw [List.filter_eq_nil_iff]
            intro x hx
            rw [decide_eq_true_eq]
            rintro ⟨hx1, hx2⟩
            rw [huniq x hx hx1.1] at hx2
            exact hx2 hin
          rw [if_pos hin, f1]; simp
        · have f1 := filter_unique (fun x : J × Nat =>
              decide (Includes idOf q x.1 ∧ x.2 ∉ s.incl)) jobs.zipIdx (j, idx) hnd2 hmem
              (by simp [hI, hin]) (by
                intro b hb hpb
                rw [decide_eq_true_eq] at hpb
                exact huniq b hb hpb.1.1)
          rw [if_neg hin, f1]; simp
      | false =>
        have hE : Excludes idOf q j := ⟨hq, hinc⟩
        have hv0 := (vote_exclude idOf q j).mpr hE
        have f1 : (jobs.zipIdx.filter fun x =>
              decide (Includes idOf q x.1 ∧ x.2 ∉ s.incl)) = [] := by
          rw [List.filter_eq_nil_iff]
          intro x hx
          simp [Includes, hinc]
        have f2 := filter_unique (fun x : J × Nat =>
              decide (Excludes idOf q x.1)) jobs.zipIdx (j, idx) hnd2 hmem
              (by simp [hE]) (by
                intro b hb hpb
                rw [decide_eq_true_eq] at hpb
                exact huniq b hb hpb.1)
        rw [f1, f2, if_neg (by rw [hv0]; decide), if_pos hv0]
        simp
  · rfl

/-- Position of the first primitive that includes the job at an index (the number of primitives if
none does). -/
def firstIncluder (jobs : List J) (ps : List (Prim J I)) (i : Nat) : Nat :=
  ps.findIdx fun p => match jobs[i]? with
    | some j => decide (Includes idOf p j)
    | none => false

theorem rows_spec (jobs : List J) (hid : (jobs.map idOf).Nodup) (ps : List (Prim J I)) :
    let s := ps.foldl (row idOf jobs) ⟨[], []⟩
    (∀ i, i ∈ s.incl ↔ ∃ j, jobs[i]? = some j ∧ ∃ p ∈ ps, Includes idOf p j) ∧
    (∀ i, i ∈ s.excl ↔ ∃ j, jobs[i]? = some j ∧ ∃ p ∈ ps, Excludes idOf p j) ∧
    s.incl.Pairwise (fun a b => firstIncluder idOf jobs ps a < firstIncluder idOf jobs ps b ∨
      (firstIncluder idOf jobs ps a = firstIncluder idOf jobs ps b ∧ a < b)) := by
  induction ps using List.reverseRecOn with
  | nil => simp
  | append_singleton ps q ih =>
    obtain ⟨h1, h2, h3⟩ := ih
    simp only [List.foldl_append, List.foldl_cons, List.foldl_nil]
    rw [row_eq_general idOf jobs hid, generalRow_eq]
    generalize hs : ps.foldl (row idOf jobs) ⟨[], []⟩ = s at *
    simp only at h1 h2 h3 ⊢
    refine ⟨?_, ?_, ?_⟩
    · intro i
      simp only [List.mem_append, h1, List.mem_map, List.mem_filter, decide_eq_true_eq,
        List.mem_singleton, Prod.exists, exists_eq_right, List.mem_zipIdx_iff_getElem?]
      constructor
      · rintro (⟨j, hj, p, hp, hi⟩ | ⟨j, hj, hi, _⟩)
        · exact ⟨j, hj, p, .inl hp, hi⟩
        · exact ⟨j, hj, q, .inr rfl, hi⟩
      · rintro ⟨j, hj, p, hp | rfl, hi⟩
        · exact .inl ⟨j, hj, p, hp, hi⟩
        · by_cases hin : ∃ j, jobs[i]? = some j ∧ ∃ p ∈ ps, Includes idOf p j
          · exact .inl hin
          · exact .inr ⟨j, hj, hi, hin⟩
    · intro i
      simp only [List.mem_append, h2, List.mem_map, List.mem_filter, decide_eq_true_eq,
        List.mem_singleton, Prod.exists, exists_eq_right, List.mem_zipIdx_iff_getElem?]
      constructor
      · rintro (⟨j, hj, p, hp, hi⟩ | ⟨j, hj, hi⟩)
        · exact ⟨j, hj, p, .inl hp, hi⟩
        · exact ⟨j, hj, q, .inr rfl, hi⟩
      · rintro ⟨j, hj, p, hp | rfl, hi⟩
        · exact .inl ⟨j, hj, p, hp, hi⟩
        · exact .inr ⟨j, hj, hi⟩
    · have hold : ∀ i ∈ s.incl, firstIncluder idOf jobs ps i < ps.length ∧
          firstIncluder idOf jobs (ps ++ [q]) i = firstIncluder idOf jobs ps i := by
        intro i hi
        obtain ⟨j, hj, p, hp, hinc⟩ := (h1 i).mp hi
        have hlt : firstIncluder idOf jobs ps i < ps.length := by
          unfold firstIncluder
          rw [List.findIdx_lt_length]
          exact ⟨p, hp, by simp [hj, hinc]⟩
        refine ⟨hlt, ?_⟩
        unfold firstIncluder at hlt ⊢
        rw [List.findIdx_append, if_pos hlt]
      have hnew : ∀ x ∈ jobs.zipIdx, Includes idOf q x.1 → x.2 ∉ s.incl →
          firstIncluder idOf jobs (ps ++ [q]) x.2 = ps.length := by
        rintro ⟨j, i⟩ hx hinc hni
        have hj := List.mem_zipIdx_iff_getElem?.mp hx
        simp only at hinc hni hj ⊢
        have hge : ¬ firstIncluder idOf jobs ps i < ps.length := by
          unfold firstIncluder
          rw [List.findIdx_lt_length]
          rintro ⟨p, hp, hpi⟩
          simp [hj] at hpi
          exact hni ((h1 i).mpr ⟨j, hj, p, hp, hpi⟩)
        unfold firstIncluder at hge ⊢
        rw [List.findIdx_append, if_neg hge]
        simp [hj, hinc, List.findIdx_cons]
      rw [List.pairwise_append]
      refine ⟨?_, ?_, ?_⟩
      · refine h3.imp_of_mem ?_
        intro a b ha hb hab
        rw [(hold a ha).2, (hold b hb).2]
        exact hab
      · rw [List.pairwise_map]
        have hsorted : jobs.zipIdx.Pairwise (fun x y => x.2 < y.2) := by
          have : (jobs.zipIdx.map (·.2)).Pairwise (· < ·) := by
            rw [List.zipIdx_map_snd]
            exact List.pairwise_lt_range'
          exact List.pairwise_map.mp this
        refine (hsorted.filter _).imp_of_mem ?_
        intro a b ha hb hab
        simp only [List.mem_filter, decide_eq_true_eq] at ha hb
        right
        rw [hnew a ha.1 ha.2.1 ha.2.2, hnew b hb.1 hb.2.1 hb.2.2]
        exact ⟨rfl, hab⟩
      · intro a ha b hb
        simp only [List.mem_map, List.mem_filter, decide_eq_true_eq] at hb
        obtain ⟨x, ⟨hx, hinc, hni⟩, rfl⟩ := hb
        left
        rw [hnew x hx hinc hni, (hold a ha).2]
        exact (hold a ha).1

/-- **C13.**  For every list of jobs with distinct ids and every list of nested qualifiers, the
selected jobs are those at a list of positions that contains exactly the jobs some primitive member
includes and none excludes, each once, ordered by the first member that includes them and then by
position. -/
theorem C13_select_jobs (jobs : List J) (hid : (jobs.map idOf).Nodup) (qs : List (Qual J I)) :
    ∃ sel : List Nat,
      (selectJobs idOf jobs qs).map some = sel.map (fun i => jobs[i]?) ∧
      (∀ i, i ∈ sel ↔ ∃ j, jobs[i]? = some j ∧
        (∃ p ∈ flatPrimitives qs, Includes idOf p j) ∧
        ¬ ∃ p ∈ flatPrimitives qs, Excludes idOf p j) ∧
      sel.Pairwise (fun a b =>
        firstIncluder idOf jobs (flatPrimitives qs) a < firstIncluder idOf jobs (flatPrimitives qs) b
        ∨ (firstIncluder idOf jobs (flatPrimitives qs) a =
            firstIncluder idOf jobs (flatPrimitives qs) b ∧ a < b)) ∧
      sel.Nodup := by
  unfold selectJobs
  cases hf : (flatPrimitives qs).isEmpty with
  | true =>
    refine ⟨[], by simp, ?_, by simp, by simp⟩
    intro i
    have : flatPrimitives qs = [] := by simpa using hf
    simp [this]
  | false =>
    obtain ⟨h1, h2, h3⟩ := rows_spec idOf jobs hid (flatPrimitives qs)
    simp only [Bool.false_eq_true, if_false]
    generalize (flatPrimitives qs).foldl (row idOf jobs) ⟨[], []⟩ = s at *
    have hmem : ∀ i, i ∈ s.incl.filter (fun i => decide (i ∉ s.excl)) ↔
        ∃ j, jobs[i]? = some j ∧
        (∃ p ∈ flatPrimitives qs, Includes idOf p j) ∧
        ¬ ∃ p ∈ flatPrimitives qs, Excludes idOf p j := by
      intro i
      simp only [List.mem_filter, decide_eq_true_eq, h1, h2]
      constructor
      · rintro ⟨⟨j, hj, hi⟩, hne⟩
        exact ⟨j, hj, hi, fun he => hne ⟨j, hj, he⟩⟩
      · rintro ⟨j, hj, hi, hne⟩
        refine ⟨⟨j, hj, hi⟩, ?_⟩
        rintro ⟨j', hj', he⟩
        rw [hj] at hj'
        simp only [Option.some.injEq] at hj'
        exact hne (hj' ▸ he)
    refine ⟨s.incl.filter (fun i => decide (i ∉ s.excl)), ?_, hmem, h3.filter _, ?_⟩
    · have : ∀ l : List Nat, (∀ i ∈ l, (jobs[i]?).isSome) →
          (l.filterMap fun i => jobs[i]?).map some = l.map fun i => jobs[i]? := by
        intro l
        induction l with
        | nil => simp
        | cons a l ih =>
          intro h
          have ha := h a (by simp)
          cases hj : jobs[a]? with
          | none => simp [hj] at ha
          | some j =>
            rw [List.filterMap_cons]
            simp [hj, ih (fun i hi => h i (by simp [hi]))]
      apply this
      intro i hi
      obtain ⟨j, hj, _⟩ := (hmem i).mp hi
      simp [hj]
    · have : (s.incl.filter (fun i => decide (i ∉ s.excl))).Pairwise (fun a b => a ≠ b) := by
        refine (h3.filter _).imp ?_
        intro a b hab hc
        subst hc
        rcases hab with h | ⟨_, h⟩ <;> omega
      exact this

/-- **C13**, the short cut: with distinct ids it never changes the result. -/
theorem C13_fast_path (jobs : List J) (hid : (jobs.map idOf).Nodup) (ps : List (Prim J I))
    (s : Sel) :
    ps.foldl (row idOf jobs) s = ps.foldl (fun s q => generalRow idOf jobs q s) s := by
  induction ps generalizing s with
  | nil => rfl
  | cons p ps ih => rw [List.foldl_cons, List.foldl_cons, row_eq_general idOf jobs hid, ih]

/-! ## Concrete cases -/

def exQuals : List (Qual Nat Nat) :=
  [.prim ⟨true, .idEq 30⟩,
   .comp [.prim ⟨false, .idEq 10⟩, .comp [.prim ⟨true, .other (· < 40)⟩, .comp []]],
   .prim ⟨true, .idEq 99⟩, .prim ⟨true, .idEq 30⟩]

example : selectJobs id [10, 20, 30, 40] exQuals = [30, 20] := by decide
example : (Qual.comp exQuals).vote id 10 = EXCLUDE ∧ (Qual.comp exQuals).vote id 20 = INCLUDE ∧
    (Qual.comp exQuals).vote id 40 = IGNORE := by decide
/-- The hypothesis of `C13_select_jobs` matters: with a repeated id the short cut sees only the last
job (qualifiers.py:486). -/
example : selectJobs (fun j : Nat × Nat => j.1) [(1, 0), (1, 1)] [.prim ⟨true, .idEq 1⟩] =
    [(1, 1)] := by decide

end Verif.Qualifiers
