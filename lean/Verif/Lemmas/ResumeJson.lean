import Verif.Model.ResumeJson
import Verif.Lemmas.SuspendOk

/-!
# Resuming from an arbitrary document: lemmas
-/

set_option linter.unusedSectionVars false
set_option linter.unusedSimpArgs false

namespace Verif.ResumeJson

open Verif.Session
open Verif.Suspend (genOf withFamily addUnit_in updateResult_in dedupLoop_in)

attribute [-instance] List.instBEq

variable {J E R : Type}

/-- The exceptions that resuming documents: subclasses of `SessionResumeError`,
resume.py:70-121. -/
inductive Documented : Exc J → Prop where
  | corrupted : Documented .corrupted
  | incompatibleSession : Documented .incompatibleSession
  | incompatibleJob : Documented .incompatibleJob
  | brokenReference : Documented .brokenReference

/-- A computation that only fails in documented ways. -/
def Good {α : Type} (x : Except (Exc J) α) : Prop := ∀ e, x = .error e → Documented e

theorem good_ok {α : Type} (a : α) : Good (J := J) (.ok a : Except (Exc J) α) := by
  intro e h; cases h

theorem good_corrupted {α : Type} : Good (J := J) (.error .corrupted : Except (Exc J) α) := by
  intro e h; cases h; exact .corrupted

theorem Good.err {α : Type} {x : Except (Exc J) α} (h : Good x) {e : Exc J} (he : x = .error e)
    {β : Type} : Good (.error e : Except (Exc J) β) := by
  intro e' h'; cases h'; exact h e he

theorem validate_good (v : Json) (ty : PyType) (n : Bool) : Good (J := J) (validate v ty n) := by
  unfold validate
  split
  · split
    · exact good_ok _
    · exact good_corrupted
  · split
    · exact good_ok _
    · exact good_corrupted

theorem validate_eq {v w : Json} {ty : PyType} {n : Bool}
    (h : validate (J := J) v ty n = .ok w) : w = v := by
  unfold validate at h
  split at h
  · split at h <;> cases h; rfl
  · split at h <;> cases h; rfl

theorem validateKey_eq {o w : Json} {k : Str} {ty : PyType} {n : Bool}
    (h : validateKey (J := J) o k ty n = .ok w) : (objOf o).lookup k = some w := by
  unfold validateKey at h
  split at h
  · cases h
  · rename_i v hv
    have := validate_eq h
    subst this
    unfold item at hv
    split at hv
    · split at hv
      · cases hv; assumption
      · cases hv
    · cases hv

theorem item_good (o : Json) (k : Str) : Good (J := J) (item o k) := by
  unfold item
  split
  · split
    · exact good_ok _
    · exact good_corrupted
  · exact good_corrupted

theorem validateKey_good (o : Json) (k : Str) (ty : PyType) (n : Bool) :
    Good (J := J) (validateKey o k ty n) := by
  unfold validateKey
  split
  · exact (item_good o k).err ‹_›
  · exact validate_good _ _ _

theorem validateIdx_good (l : List Json) (i : Nat) (ty : PyType) :
    Good (J := J) (validateIdx l i ty) := by
  unfold validateIdx
  split
  · exact good_corrupted
  · exact validate_good _ _ _

theorem strings_good : ∀ l : List Json, Good (J := J) (strings l) := by
  intro l
  induction l with
  | nil => exact good_ok _
  | cons v vs ih =>
    unfold strings
    split
    · exact (validate_good v .str false).err ‹_›
    · split
      · exact ih.err ‹_›
      · exact good_ok _

theorem buildRec_good (v : Json) : Good (J := J) (buildRec v) := by
  unfold buildRec
  split
  · exact (validate_good v .list false).err ‹_›
  · split
    · exact (validateIdx_good _ _ _).err ‹_›
    · split
      · split
        · exact good_corrupted
        · split
          · exact (validateIdx_good _ _ _).err ‹_›
          · dsimp only
            split
            · exact good_corrupted
            · split
              · exact (validateIdx_good _ _ _).err ‹_›
              · split
                · exact good_corrupted
                · exact good_ok _
      · exact good_corrupted

theorem buildRecs_good : ∀ l : List Json, Good (J := J) (buildRecs l) := by
  intro l
  induction l with
  | nil => exact good_ok _
  | cons v vs ih =>
    unfold buildRecs
    split
    · exact (buildRec_good v).err ‹_›
    · split
      · exact ih.err ‹_›
      · exact good_ok _

theorem buildOutcome_good (o : Json) : Good (J := J) (buildOutcome o) := by
  unfold buildOutcome
  split
  · exact (validateKey_good _ _ _ _).err ‹_›
  · split
    · exact good_ok _
    · split
      · exact good_ok _
      · exact good_corrupted

theorem loadFilename_good {c : Cfg J R} {loc : Str} (hl : c.location = some loc) (n : Nat)
    (o : Json) : Good (loadFilename c n o) := by
  unfold loadFilename
  split
  · exact (validateKey_good _ _ _ _).err ‹_›
  · dsimp only
    split
    · exact good_ok _
    · split
      · exact good_ok _
      · rw [hl]; exact good_ok _

theorem checkFilename_good {c : Cfg J R} {loc : Str} (hl : c.location = some loc) (name : Str) :
    Good (checkFilename c name) := by
  unfold checkFilename
  dsimp only
  rw [hl]
  have key : ∀ name : Str, Good (J := J) (if (c.checkFiles && !c.isfile name) = true then
      (.error .brokenReference : Except (Exc J) Str) else .ok name) := by
    intro name
    split
    · intro e h; cases h; exact .brokenReference
    · exact good_ok _
  split
  · rename_i h
    split at h <;> cases h
  · exact key _

theorem buildRes_good {c : Cfg J R} {loc : Str} (hl : c.location = some loc) (n : Nat) (o : Json) :
    Good (buildRes c n o) := by
  unfold buildRes
  split
  · exact (buildOutcome_good o).err ‹_›
  · split
    · exact (validateKey_good _ _ _ _).err ‹_›
    · split
      · exact (validateKey_good _ _ _ _).err ‹_›
      · split
        · exact (validateKey_good _ _ _ _).err ‹_›
        · dsimp only
          split
          · split
            · exact (loadFilename_good hl n o).err ‹_›
            · split
              · exact (checkFilename_good hl _).err ‹_›
              · exact good_ok _
          · split
            · exact (validateKey_good _ _ _ _).err ‹_›
            · split
              · exact (buildRecs_good _).err ‹_›
              · exact good_ok _

theorem buildAll_good {c : Cfg J R} {loc : Str} (hl : c.location = some loc) (n : Nat) :
    ∀ l : List Json, Good (buildAll c n l) := by
  intro l
  induction l with
  | nil => exact good_ok _
  | cons v vs ih =>
    unfold buildAll
    split
    · exact (validate_good _ _ _).err ‹_›
    · split
      · exact (buildRes_good hl n _).err ‹_›
      · split
        · exact ih.err ‹_›
        · exact good_ok _

theorem metadata_good (n : Nat) (sr : Json) : Good (J := J) (metadata n sr) := by
  unfold metadata
  split
  · exact (validateKey_good _ _ _ _).err ‹_›
  · split
    · exact (validateKey_good _ _ _ _).err ‹_›
    · split
      · exact (validateKey_good _ _ _ _).err ‹_›
      · split
        · exact (strings_good _).err ‹_›
        · split
          · exact (validateKey_good _ _ _ _).err ‹_›
          · split
            · exact good_ok _
            · split
              · exact (validateKey_good _ _ _ _).err ‹_›
              · dsimp only
                repeat'
                  first
                    | exact good_ok _
                    | exact good_corrupted
                    | exact (validateKey_good _ _ _ _).err ‹_›
                    | split

variable [DecidableEq J] [DecidableEq E] [DecidableEq R]

/-- A universe of jobs without clashes: ids are unique in it, it holds the jobs given and
everything that siblings and templates can add to them, and requirement programs in it compile. -/
structure Universe (sem : Sem J Str E R) (base U : List J) : Prop where
  uniq : (U.map sem.id).Nodup
  baseSub : ∀ j ∈ base, j ∈ U
  fam : ∀ j ∈ U, ∀ k ∈ sem.family j, k ∈ U
  gens : ∀ j ∈ U, ∀ r : Result R, ∀ k ∈ genOf sem j r, k ∈ U
  progs : ∀ j ∈ U, sem.prog j ≠ .bad

/-- The state of processing. -/
structure Proc (sem : Sem J Str E R) (U : List J) (s : Session J Str E R) : Prop where
  book : Book sem s
  run : s.runList = []
  sub : ∀ k ∈ s.jobs, k ∈ U
  mand : s.mandatory = []

theorem addMany_mandatory (sem : Sem J Str E R) : ∀ (js : List J) (s : Session J Str E R),
    (addMany sem s js).1.mandatory = s.mandatory := by
  intro js
  induction js with
  | nil => intro s; rfl
  | cons j js ih =>
    intro s
    unfold addMany
    have h1 : (addOne sem s j).1.mandatory = s.mandatory := by
      unfold addOne
      split
      · rfl
      · split <;> rfl
    generalize hx : addOne sem s j = x at h1
    obtain ⟨s', e⟩ := x
    cases e with
    | some e => exact h1
    | none => exact (ih s').trans h1

theorem addUnit_mandatory (sem : Sem J Str E R) (s : Session J Str E R) (j : J) :
    (addUnit sem s j).1.mandatory = s.mandatory := addMany_mandatory sem _ s

theorem addGenerated_mandatory (sem : Sem J Str E R) : ∀ (js : List J) (s : Session J Str E R),
    (addGenerated sem s js).1.mandatory = s.mandatory := by
  intro js
  induction js with
  | nil => intro s; rfl
  | cons j js ih =>
    intro s
    unfold addGenerated
    have h1 := addUnit_mandatory sem s j
    generalize hx : addUnit sem s j = x at h1
    obtain ⟨s', e⟩ := x
    cases e with
    | some e => exact h1
    | none => exact (ih s').trans h1

theorem storeResource_mandatory (sem : Sem J Str E R) (s : Session J Str E R) (j : J)
    (r : Result R) : (storeResource sem s j r).mandatory = s.mandatory := by
  unfold storeResource; split <;> rfl

theorem observeResult_mandatory (sem : Sem J Str E R) (s : Session J Str E R) (j : J)
    (r : Result R) : (observeResult sem s j r).1.mandatory = s.mandatory := by
  unfold observeResult
  split
  · rfl
  · dsimp only
    split
    · split
      · exact storeResource_mandatory ..
      · exact (addGenerated_mandatory ..).trans (storeResource_mandatory ..)
    · rfl

theorem updateResult_mandatory (sem : Sem J Str E R) (s : Session J Str E R) (j : J)
    (r : Result R) : (updateResult sem s j r).1.mandatory = s.mandatory := by
  have := observeResult_mandatory sem s j r
  unfold updateResult
  generalize observeResult sem s j r = x at this
  obtain ⟨s', e⟩ := x
  cases e <;> exact this

theorem addBase_proc {sem : Sem J Str E R} {base U : List J} (hU : Universe sem base U) :
    ∀ (js : List J) {s : Session J Str E R}, Proc sem U s → (∀ k ∈ js, k ∈ U) →
    ∃ s', addBase sem js s = .ok s' ∧ Proc sem U s' := by
  intro js
  induction js with
  | nil => intro s h _; exact ⟨s, rfl, h⟩
  | cons j js ih =>
    intro s h hj
    obtain ⟨s1, h1, b1, r1, u1, _, _⟩ := addUnit_in hU.uniq hU.fam h.book h.run h.sub
      (hj j (by simp))
    have hm := addUnit_mandatory sem s j
    rw [h1] at hm
    obtain ⟨s2, h2, p2⟩ := ih ⟨b1, r1, u1, hm.trans h.mand⟩ (fun k hk => hj k (by simp [hk]))
    exact ⟨s2, by simp only [addBase, h1, h2], p2⟩

/-- How one step of processing may end. -/
def StepOK (sem : Sem J Str E R) (U : List J) : Step J E R → Prop
  | .done s => Proc sem U s
  | .keyError s => Proc sem U s
  | .raised e => Documented e

theorem replay_proc {c : Cfg J R} {sem : Sem J Str E R} {base U : List J}
    (hU : Universe sem base U) (hlog : ∀ r, r.outcome ≠ .none → (c.records r).isSome) {j : J} : ∀ (rs : List JRes)
    {s : Session J Str E R}, Proc sem U s → j ∈ s.jobs → StepOK sem U (replay c sem j rs s) := by
  intro rs
  induction rs with
  | nil => intro s h _; exact h
  | cons r rs ih =>
    intro s h hj
    unfold replay
    rw [if_neg (by have := hlog r; cases hr : c.records r <;> simp_all)]
    obtain ⟨s1, h1, b1, r1, u1, m1, _⟩ := updateResult_in hU.uniq hU.fam h.book h.run h.sub hj
      (toResult c r) (hU.gens j (h.sub j hj) _)
    have hm := updateResult_mandatory sem s j (toResult c r)
    rw [h1] at hm
    simp only [h1]
    exact ih ⟨b1, r1, u1, hm.trans h.mand⟩ (m1 j hj)

/-- No job has `null` in place of its list of results. -/
def NoNull (results : Json) : Prop := ∀ i, (objOf results).lookup i ≠ some .null

theorem processJob_proc {c : Cfg J R} {sem : Sem J Str E R} {base U : List J} {loc : Str}
    (hU : Universe sem base U) (hlog : ∀ r, r.outcome ≠ .none → (c.records r).isSome) (hl : c.location = some loc)
    (n : Nat) (jobs : Json) {results : Json} (hn : NoNull results) {s : Session J Str E R}
    (h : Proc sem U s) (i : Str) : StepOK sem U (processJob c sem n jobs results s i) := by
  unfold processJob
  split
  · exact validateKey_good _ _ _ _ _ ‹_›
  · split
    · exact h
    · rename_i q hq
      obtain ⟨a, b⟩ := h.book.lookup_job hq
      split
      · exact Documented.incompatibleJob
      · split
        · exact h
        · split
          · exact validateKey_good _ _ _ _ _ ‹_›
          · rename_i v hv
            split
            · -- null
              exfalso
              unfold validateKey at hv
              split at hv
              · cases hv
              · rename_i w hw
                have hwn : w = .null := by
                  unfold validate at hv
                  split at hv
                  · rfl
                  · split at hv
                    · cases hv; exact absurd rfl ‹_›
                    · cases hv
                unfold item at hw
                split at hw
                · split at hw
                  · rename_i l _ x hx
                    cases hw
                    exact hn i (by rw [← hwn]; exact hx)
                  · cases hw
                · cases hw
            · split
              · exact buildAll_good hl n _ _ ‹_›
              · exact replay_proc hU hlog _ h a

theorem pass_proc {c : Cfg J R} {sem : Sem J Str E R} {base U : List J} {loc : Str}
    (hU : Universe sem base U) (hlog : ∀ r, r.outcome ≠ .none → (c.records r).isSome) (hl : c.location = some loc)
    (n : Nat) (jobs : Json) {results : Json} (hn : NoNull results) : ∀ (is : List Str)
    {s : Session J Str E R}, Proc sem U s →
    Good (pass c sem n jobs results is s) ∧
    ∀ s' left, pass c sem n jobs results is s = .ok (s', left) → Proc sem U s' := by
  intro is
  induction is with
  | nil =>
    intro s h
    exact ⟨good_ok _, by intro s' left he; cases he; exact h⟩
  | cons i is ih =>
    intro s h
    have h1 := processJob_proc hU hlog hl n jobs hn h i
    unfold pass
    cases hp : processJob c sem n jobs results s i with
    | raised e =>
      rw [hp] at h1
      exact ⟨by intro e' he; cases he; exact h1, by intro s' left he; cases he⟩
    | done s1 =>
      rw [hp] at h1
      exact ih h1
    | keyError s1 =>
      rw [hp] at h1
      obtain ⟨g, ok⟩ := ih (s := s1) h1
      dsimp only
      cases hq : pass c sem n jobs results is s1 with
      | error e => exact ⟨g.err hq, by intro s' left he; cases he⟩
      | ok p =>
        obtain ⟨s2, left⟩ := p
        exact ⟨good_ok _, by intro s' left' he; cases he; exact ok _ _ hq⟩

theorem rounds_proc {c : Cfg J R} {sem : Sem J Str E R} {base U : List J} {loc : Str}
    (hU : Universe sem base U) (hlog : ∀ r, r.outcome ≠ .none → (c.records r).isSome) (hl : c.location = some loc)
    (v : Nat) (jobs : Json) {results : Json} (hn : NoNull results) : ∀ (n : Nat) (left : List Str)
    {s : Session J Str E R}, left.length ≤ n → Proc sem U s →
    Good (rounds c sem v jobs results n left s) ∧
    ∀ s', rounds c sem v jobs results n left s = .ok s' → Proc sem U s' := by
  intro n
  induction n with
  | zero =>
    intro left s hlen h
    have : left = [] := List.length_eq_zero_iff.mp (by omega)
    subst this
    exact ⟨good_ok _, by intro s' he; cases he; exact h⟩
  | succ n ih =>
    intro left s hlen h
    cases left with
    | nil => exact ⟨good_ok _, by intro s' he; cases he; exact h⟩
    | cons i is =>
      obtain ⟨g, ok⟩ := pass_proc hU hlog hl v jobs hn (i :: is) h
      unfold rounds
      cases hq : pass c sem v jobs results (i :: is) s with
      | error e => exact ⟨g.err hq, by intro s' he; cases he⟩
      | ok p =>
        obtain ⟨s2, left⟩ := p
        dsimp only
        split
        · rename_i hlt
          exact ih left (by simp only [List.length_cons] at hlt hlen; omega) (ok _ _ hq)
        · exact ⟨good_corrupted, by intro s' he; cases he⟩

theorem restoreResults_proc {c : Cfg J R} {sem : Sem J Str E R} {base U : List J} {loc : Str}
    (hU : Universe sem base U) (hlog : ∀ r, r.outcome ≠ .none → (c.records r).isSome) (hl : c.location = some loc)
    (sortIds : List Str → List Str) (v : Nat) {sr : Json}
    (hn : ∀ rs, (objOf sr).lookup "results".toList = some rs → NoNull rs)
    {s : Session J Str E R} (h : Proc sem U s) :
    Good (restoreResults c sem sortIds v base sr s) ∧
    ∀ s', restoreResults c sem sortIds v base sr s = .ok s' → Proc sem U s' := by
  unfold restoreResults
  split
  · exact ⟨(validateKey_good _ _ _ _).err ‹_›, by intro s' he; cases he⟩
  · split
    · exact ⟨(validateKey_good _ _ _ _).err ‹_›, by intro s' he; cases he⟩
    · rename_i _ jobs _ _ results hr
      have hn' : NoNull results := by
        apply hn
        unfold validateKey at hr
        split at hr
        · cases hr
        · rename_i w hw
          have hwr : w = results := by
            unfold validate at hr
            split at hr
            · split at hr <;> cases hr; rfl
            · split at hr <;> cases hr; rfl
          subst hwr
          unfold item at hw
          split at hw
          · split at hw
            · cases hw; assumption
            · cases hw
          · cases hw
      obtain ⟨s1, h1, p1⟩ := addBase_proc hU base h hU.baseSub
      rw [h1]
      dsimp only
      obtain ⟨g, ok⟩ := pass_proc hU hlog hl v jobs hn'
        (sortIds ((objOf jobs).map Prod.fst ++ (objOf results).map Prod.fst)) p1
      cases hq : pass c sem v jobs results
        (sortIds ((objOf jobs).map Prod.fst ++ (objOf results).map Prod.fst)) s1 with
      | error e => exact ⟨g.err hq, by intro s' he; cases he⟩
      | ok p =>
        obtain ⟨s2, left⟩ := p
        exact rounds_proc hU hlog hl v jobs hn' _ _ (Nat.le_refl _) (ok _ _ hq)

theorem lookupJobs_sub {sem : Sem J Str E R} {s : Session J Str E R} (hb : Book sem s) :
    ∀ (ids : List Str) (l : List J), lookupJobs s ids = some l → ∀ j ∈ l, j ∈ s.jobs := by
  intro ids
  induction ids with
  | nil => intro l h; cases h; simp
  | cons i is ih =>
    intro l h
    unfold lookupJobs at h
    split at h
    · cases h
    · rename_i q hq
      split at h
      · cases h
      · rename_i l' hl'
        cases h
        intro j hj
        rcases List.mem_cons.mp hj with rfl | hj
        · exact (hb.lookup_job hq).1
        · exact ih l' hl' j hj

theorem jobList_good {sem : Sem J Str E R} {s : Session J Str E R} (hb : Book sem s) (sr : Json)
    (key : Str) : Good (jobList sr key s) ∧ ∀ l, jobList sr key s = .ok l → ∀ j ∈ l, j ∈ s.jobs := by
  unfold jobList
  split
  · exact ⟨(validateKey_good _ _ _ _).err ‹_›, by intro l he; cases he⟩
  · split
    · exact ⟨(strings_good _).err ‹_›, by intro l he; cases he⟩
    · split
      · exact ⟨good_corrupted, by intro l he; cases he⟩
      · rename_i l hl
        exact ⟨good_ok _, by intro l' he; cases he; exact lookupJobs_sub hb _ _ hl⟩

theorem build_good {c : Cfg J R} {sem : Sem J Str E R} (hwf : sem.WF) {base U : List J} {loc : Str}
    (hU : Universe sem base U) (hlog : ∀ r, r.outcome ≠ .none → (c.records r).isSome) (hl : c.location = some loc)
    (sortIds : List Str → List Str) (v : Nat) {sr : Json}
    (hn : ∀ rs, (objOf sr).lookup "results".toList = some rs → NoNull rs) :
    Good (build c sem sortIds v base sr) ∧
    ∀ s, build c sem sortIds v base sr = .ok s →
      Book sem s ∧ (∀ j ∈ s.runList, j ∈ s.jobs) ∧ (∀ j ∈ s.jobs, j ∈ U) ∧
      (s.runList.map sem.id).Nodup ∧ DepMgr.DepsFirst sem.graph s.runList := by
  obtain ⟨r, hr, hrU⟩ := dedupLoop_in hU.uniq (base.length + 1) base (by omega) hU.baseSub
  have hc : construct sem base =
      .ok ⟨r, base, r.map (fun j => (sem.id j, JobState.new j)), [], [], [], []⟩ := by
    simp only [construct, hr]
  have hlive := construct_live hc
  unfold build
  rw [hc]
  dsimp only
  obtain ⟨g1, ok1⟩ := restoreResults_proc hU hlog hl sortIds v hn
    (s := ⟨r, base, r.map (fun j => (sem.id j, JobState.new j)), [], [], [], []⟩)
    ⟨hlive.book, rfl, hrU, rfl⟩
  split
  · exact ⟨g1.err ‹_›, by intro s he; cases he⟩
  · rename_i s1 hs1
    have p1 := ok1 _ hs1
    split
    · exact ⟨(metadata_good _ _).err ‹_›, by intro s he; cases he⟩
    · obtain ⟨g2, ok2⟩ : Good (restoreMandatory v sr s1) ∧
          ∀ s2, restoreMandatory v sr s1 = .ok s2 → Book sem s2 ∧ s2.jobs = s1.jobs ∧
            ∀ j ∈ s2.mandatory, j ∈ s2.jobs := by
        unfold restoreMandatory
        split
        · refine ⟨good_ok _, ?_⟩
          intro s2 he
          cases he
          exact ⟨p1.book, rfl, by rw [p1.mand]; simp⟩
        · obtain ⟨g, ok⟩ := jobList_good p1.book sr "mandatory_job_list".toList
          split
          · exact ⟨g.err ‹_›, by intro s2 he; cases he⟩
          · rename_i l hl'
            refine ⟨good_ok _, ?_⟩
            intro s2 he
            cases he
            exact ⟨⟨p1.book.nodup, p1.book.states, p1.book.res⟩, rfl, ok l hl'⟩
      split
      · exact ⟨g2.err ‹_›, by intro s he; cases he⟩
      · rename_i s2 hs2
        obtain ⟨b2, j2, m2⟩ := ok2 _ hs2
        obtain ⟨g3, ok3⟩ : Good (restoreDesired sem sr s2) ∧
            ∀ s3, restoreDesired sem sr s2 = .ok s3 → Book sem s3 ∧ s3.jobs = s1.jobs ∧
              (∀ j ∈ s3.runList, j ∈ s3.jobs) ∧ (s3.runList.map sem.id).Nodup ∧
              DepMgr.DepsFirst sem.graph s3.runList := by
          unfold restoreDesired
          obtain ⟨g, ok⟩ := jobList_good b2 sr "desired_job_list".toList
          split
          · exact ⟨g.err ‹_›, by intro s3 he; cases he⟩
          · rename_i l hl'
            have hsub : ∀ j ∈ s2.mandatory ++ l, j ∈ s2.jobs := by
              intro j hj
              rcases List.mem_append.mp hj with hj | hj
              · exact m2 j hj
              · exact ok l hl' j hj
            obtain ⟨d, run, problems, hrep, heq⟩ := updateDesired_spec b2 l true
              (fun v hv _ => hsub v hv)
            have bk : Book sem { s2 with desired := d, runList := run } :=
              ⟨b2.nodup, b2.states, b2.res⟩
            have htot : (recompute sem { s2 with desired := d, runList := run }).2 = none := by
              refine recompute_total hwf bk (fun j hj => (hrep.sub j hj).1) hrep.nodup hrep.order ?_
              intro j hj
              refine hU.progs j (p1.sub j ?_)
              rw [← j2]
              exact (hrep.sub j hj).1
            rw [htot] at heq
            simp only [heq]
            refine ⟨good_ok _, ?_⟩
            intro s3 he
            cases he
            exact ⟨bk.recompute, j2, fun j hj => (hrep.sub j hj).1, hrep.nodup, hrep.order⟩
        split
        · exact ⟨g3.err ‹_›, by intro s he; cases he⟩
        · rename_i s3 hs3
          obtain ⟨b3, j3, r3, n3, o3⟩ := ok3 _ hs3
          unfold restoreJobList
          split
          · exact ⟨(validateKey_good _ _ _ _).err ‹_›, by intro s he; cases he⟩
          · rename_i jobs _
            dsimp only
            rcases trim_spec b3 (fun j => decide (sem.id j ∉ s3.runList.map sem.id ++
              (objOf jobs).map Prod.fst)) with ⟨_, j, _, hd, hm⟩ | ⟨s', ht, hno, hs', _, _, _, _, hb⟩
            · exfalso
              simp only [decide_eq_true_eq, List.mem_append, not_or] at hd
              exact hd.1 hm
            · rw [ht]
              refine ⟨good_ok _, ?_⟩
              intro s he
              cases he
              have hj : s'.jobs = s3.jobs.filter (fun j => !(decide (sem.id j ∉ s3.runList.map sem.id ++
                (objOf jobs).map Prod.fst))) := by rw [hs']
              have hrl : s'.runList = s3.runList := by rw [hs']
              refine ⟨hb, ?_, ?_, by rw [hrl]; exact n3, by rw [hrl]; exact o3⟩
              · intro j hjr
                rw [hrl] at hjr
                rw [hj, List.mem_filter]
                refine ⟨r3 j hjr, ?_⟩
                have : sem.id j ∈ s3.runList.map sem.id := List.mem_map.mpr ⟨j, hjr, rfl⟩
                simp only [List.mem_append, this, true_or, not_true, decide_false, Bool.not_false]
              · intro j hjj
                rw [hj, List.mem_filter] at hjj
                refine p1.sub j ?_
                rw [← j3]; exact hjj.1

end Verif.ResumeJson
