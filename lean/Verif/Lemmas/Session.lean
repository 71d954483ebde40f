import Verif.Lemmas.Repair

/-! Lemmas about the session model: dictionaries, readiness recomputation, bookkeeping. -/

set_option linter.unusedSectionVars false
set_option linter.unusedSimpArgs false
set_option linter.unnecessarySeqFocus false

namespace Verif.Session

open Verif.DepMgr (Graph DepType)
open Verif.Resource (ExprSem ProgOutcome evaluateOrRaise)

/-! ## Dictionaries -/

section Dict
variable {K V : Type} [DecidableEq K]

theorem lookup_cons_if (m : List (K × V)) (p : K × V) (i : K) :
    (p :: m).lookup i = if i = p.1 then some p.2 else m.lookup i := by
  obtain ⟨k, v⟩ := p
  rw [List.lookup_cons]
  by_cases h : i = k
  · subst h; simp
  · have : (i == k) = false := by simpa using h
    simp [h, this]

theorem lookup_isSome_iff (m : List (K × V)) (i : K) :
    (m.lookup i).isSome = true ↔ i ∈ m.map Prod.fst := by
  induction m with
  | nil => simp
  | cons p m ih =>
    rw [lookup_cons_if]
    by_cases h : i = p.1
    · simp [h]
    · simp only [h, if_false, ih, List.map_cons, List.mem_cons, false_or]

theorem lookup_eq_none_iff' (m : List (K × V)) (i : K) :
    m.lookup i = none ↔ i ∉ m.map Prod.fst := by
  rw [← lookup_isSome_iff]; cases m.lookup i <;> simp

theorem lookup_mem {m : List (K × V)} {i : K} {v : V} (h : m.lookup i = some v) : (i, v) ∈ m := by
  induction m with
  | nil => simp at h
  | cons p m ih =>
    rw [lookup_cons_if] at h
    by_cases hi : i = p.1
    · rw [if_pos hi] at h
      simp only [Option.some.injEq] at h
      subst h; subst hi; simp
    · rw [if_neg hi] at h
      exact List.mem_cons_of_mem _ (ih h)

theorem lookup_of_mem {m : List (K × V)} (hnd : (m.map Prod.fst).Nodup) {i : K} {v : V}
    (h : (i, v) ∈ m) : m.lookup i = some v := by
  induction m with
  | nil => simp at h
  | cons p m ih =>
    simp only [List.map_cons, List.nodup_cons] at hnd
    rw [lookup_cons_if]
    rcases List.mem_cons.mp h with rfl | h
    · simp
    · have : i ≠ p.1 := by
        intro hc
        exact hnd.1 (hc ▸ List.mem_map.mpr ⟨_, h, rfl⟩)
      rw [if_neg this]
      exact ih hnd.2 h

theorem lookup_modify (m : List (K × V)) (k : K) (f : V → V) (i : K) :
    (modify m k f).lookup i = if i = k then (m.lookup i).map f else m.lookup i := by
  induction m with
  | nil => simp [modify]
  | cons p m ih =>
    simp only [modify, List.map_cons] at ih ⊢
    rw [lookup_cons_if, lookup_cons_if, ih]
    by_cases hpk : p.1 = k
    · subst hpk
      by_cases hi : i = p.1 <;> simp [hi]
    · by_cases hi : i = p.1
      · subst hi; simp [hpk]
      · simp [hpk, hi]

theorem modify_keys (m : List (K × V)) (k : K) (f : V → V) :
    (modify m k f).map Prod.fst = m.map Prod.fst := by
  simp only [modify, List.map_map]
  apply List.map_congr_left
  intro p _
  simp only [Function.comp]
  split <;> rfl

theorem lookup_delKey (m : List (K × V)) (k i : K) :
    (delKey m k).lookup i = if i = k then none else m.lookup i := by
  induction m with
  | nil => simp [delKey]
  | cons p m ih =>
    simp only [delKey, List.filter_cons] at ih ⊢
    by_cases hpk : p.1 = k
    · simp only [hpk, ne_eq, not_true_eq_false, decide_false, Bool.false_eq_true, if_false]
      rw [ih, lookup_cons_if]
      by_cases hi : i = k <;> simp [hi, hpk]
    · simp only [ne_eq, hpk, not_false_eq_true, decide_true, if_true]
      rw [lookup_cons_if, lookup_cons_if, ih]
      by_cases hi : i = p.1
      · subst hi; simp [hpk]
      · simp [hi]

theorem delKey_sublist (m : List (K × V)) (k : K) : (delKey m k).Sublist m :=
  List.filter_sublist

theorem lookup_setKey (m : List (K × V)) (k : K) (v : V) (i : K) :
    (setKey m k v).lookup i = if i = k then some v else m.lookup i := by
  unfold setKey
  split
  · rename_i h
    rw [lookup_modify]
    by_cases hi : i = k
    · subst hi
      obtain ⟨w, hw⟩ := Option.isSome_iff_exists.mp h
      simp [hw]
    · simp [hi]
  · rename_i h
    have hn : m.lookup k = none := by cases hl : m.lookup k <;> simp_all
    rw [List.lookup_append]
    by_cases hi : i = k
    · subst hi; simp [hn]
    · have : List.lookup i [(k, v)] = none := by
        rw [lookup_cons_if]; simp [hi]
      rw [this]; simp [hi]

theorem setKey_keys (m : List (K × V)) (k : K) (v : V) (i : K) :
    i ∈ (setKey m k v).map Prod.fst ↔ i = k ∨ i ∈ m.map Prod.fst := by
  rw [← lookup_isSome_iff, lookup_setKey]
  by_cases h : i = k
  · simp [h]
  · simp only [h, if_false, false_or, lookup_isSome_iff]

end Dict

variable {J I E R : Type} [DecidableEq J] [DecidableEq I] [DecidableEq E] [DecidableEq R]

/-! ## The four loops of `get_inhibitor_list` have one shape -/

/-- Look up every id and collect what `f` says about the job and its outcome. -/
def genLoop (lk : I → Option (J × Outcome)) (f : J → Outcome → List (Inhibitor J E)) :
    List I → Except (Err J I) (List (Inhibitor J E))
  | [] => .ok []
  | i :: is =>
    match lk i with
    | none => .error (.keyError i)
    | some (j, o) =>
      match genLoop lk f is with
      | .error x => .error x
      | .ok l => .ok (f j o ++ l)

theorem genLoop_ok (lk : I → Option (J × Outcome)) (f : J → Outcome → List (Inhibitor J E))
    (is : List I) (h : ∀ i ∈ is, (lk i).isSome = true) : ∃ l, genLoop lk f is = .ok l := by
  induction is with
  | nil => exact ⟨[], rfl⟩
  | cons i is ih =>
    obtain ⟨p, hp⟩ := Option.isSome_iff_exists.mp (h i (by simp))
    obtain ⟨l, hl⟩ := ih (fun k hk => h k (by simp [hk]))
    obtain ⟨j, o⟩ := p
    exact ⟨f j o ++ l, by simp [genLoop, hp, hl]⟩

theorem genLoop_mem {lk : I → Option (J × Outcome)} {f : J → Outcome → List (Inhibitor J E)}
    {is : List I} {l : List (Inhibitor J E)} (h : genLoop lk f is = .ok l) (x : Inhibitor J E) :
    x ∈ l ↔ ∃ i ∈ is, ∃ j o, lk i = some (j, o) ∧ x ∈ f j o := by
  induction is generalizing l with
  | nil => simp only [genLoop, Except.ok.injEq] at h; subst h; simp
  | cons i is ih =>
    simp only [genLoop] at h
    split at h
    · simp at h
    · rename_i j o hlk
      split at h
      · simp at h
      · rename_i l' hl'
        simp only [Except.ok.injEq] at h
        subst h
        rw [List.mem_append, ih hl']
        constructor
        · rintro (h | ⟨k, hk, h⟩)
          · exact ⟨i, by simp, j, o, hlk, h⟩
          · exact ⟨k, by simp [hk], h⟩
        · rintro ⟨k, hk, j', o', hlk', h⟩
          rcases List.mem_cons.mp hk with rfl | hk
          · rw [hlk] at hlk'
            simp only [Option.some.injEq, Prod.mk.injEq] at hlk'
            obtain ⟨rfl, rfl⟩ := hlk'
            exact .inl h
          · exact .inr ⟨k, hk, j', o', hlk', h⟩

theorem genLoop_known {lk : I → Option (J × Outcome)} {f : J → Outcome → List (Inhibitor J E)}
    {is : List I} {l : List (Inhibitor J E)} (h : genLoop lk f is = .ok l) :
    ∀ i ∈ is, (lk i).isSome = true := by
  induction is generalizing l with
  | nil => simp
  | cons i is ih =>
    simp only [genLoop] at h
    split at h
    · simp at h
    · rename_i j o hlk
      split at h
      · simp at h
      · rename_i l' hl'
        intro k hk
        rcases List.mem_cons.mp hk with rfl | hk
        · simp [hlk]
        · exact ih hl' k hk

theorem pendingResources_eq (lk : I → Option (J × Outcome)) (e : E) (is : List I) :
    pendingResources lk e is =
      genLoop lk (fun j o => if o = .pass then [] else [⟨.pendingResource, some j, some e⟩]) is := by
  induction is with
  | nil => rfl
  | cons i is ih =>
    simp only [pendingResources, genLoop, ih]
    cases lk i with
    | none => rfl
    | some p =>
      obtain ⟨j, o⟩ := p
      simp only
      split <;> rename_i h <;> simp only [h] <;> split <;> simp

theorem failedResources_eq (lk : I → Option (J × Outcome)) (e : E) (is : List I) :
    failedResources lk e is = genLoop lk (fun j _ => [⟨.failedResource, some j, some e⟩]) is := by
  induction is with
  | nil => rfl
  | cons i is ih =>
    simp only [failedResources, genLoop, ih]
    cases lk i with
    | none => rfl
    | some p =>
      obtain ⟨j, o⟩ := p
      simp only
      split <;> rename_i h <;> simp only [h] <;> simp

theorem directLoop_eq (lk : I → Option (J × Outcome)) (is : List I) :
    directLoop (E := E) lk is =
      genLoop lk (fun j o => if o = .none then [⟨.pendingDep, some j, none⟩]
        else if o ≠ .pass then [⟨.failedDep, some j, none⟩] else []) is := by
  induction is with
  | nil => rfl
  | cons i is ih =>
    simp only [directLoop, genLoop, ih]
    cases lk i with
    | none => rfl
    | some p =>
      obtain ⟨j, o⟩ := p
      simp only
      split <;> rename_i h
      · simp only [h]
      · simp only [h]
        cases o <;> simp

theorem afterLoop_eq (lk : I → Option (J × Outcome)) (is : List I) :
    afterLoop (E := E) lk is =
      genLoop lk (fun j o => if o = .none then [⟨.pendingDep, some j, none⟩] else []) is := by
  induction is with
  | nil => rfl
  | cons i is ih =>
    simp only [afterLoop, genLoop, ih]
    cases lk i with
    | none => rfl
    | some p =>
      obtain ⟨j, o⟩ := p
      simp only
      split <;> rename_i h
      · simp only [h]
      · simp only [h]
        cases o <;> simp

/-- Exact content of the resource part. -/
theorem resourcePart_mem {sem : Sem J I E R} {lk : I → Option (J × Outcome)}
    {res : List (I × List R)} {j : J} {l : List (Inhibitor J E)}
    (h : resourcePart sem lk res j = .ok l) (x : Inhibitor J E) :
    x ∈ l ↔ ∃ es, sem.prog j = .prog es ∧
      ((∃ e i0, evaluateOrRaise sem.expr res es = .cannotEvaluate e i0 ∧
          ∃ i ∈ sem.expr.resIds e, ∃ k o, lk i = some (k, o) ∧ o ≠ .pass ∧
            x = ⟨.pendingResource, some k, some e⟩) ∨
       (∃ e, evaluateOrRaise sem.expr res es = .failed e ∧
          ∃ i ∈ sem.expr.resIds e, ∃ k o, lk i = some (k, o) ∧
            x = ⟨.failedResource, some k, some e⟩)) := by
  unfold resourcePart at h
  split at h
  · rename_i hp
    simp only [Except.ok.injEq] at h; subst h; simp [hp]
  · simp at h
  · rename_i es hp
    split at h
    · rename_i he
      simp only [Except.ok.injEq] at h; subst h; simp [hp, he]
    · rename_i e i0 he
      rw [pendingResources_eq] at h
      rw [genLoop_mem h]
      constructor
      · rintro ⟨i, hi, k, o, hl, hx⟩
        split at hx
        · simp at hx
        · rename_i ho
          exact ⟨es, hp, .inl ⟨e, i0, he, i, hi, k, o, hl, ho, by simpa using hx⟩⟩
      · rintro ⟨es', hp', h'⟩
        rw [hp] at hp'
        simp only [Prog.prog.injEq] at hp'
        subst hp'
        rcases h' with ⟨e', i0', he', i, hi, k, o, hl, ho, rfl⟩ | ⟨e', he', _⟩
        · rw [he] at he'
          simp only [ProgOutcome.cannotEvaluate.injEq] at he'
          obtain ⟨rfl, rfl⟩ := he'
          exact ⟨i, hi, k, o, hl, by simp [ho]⟩
        · rw [he] at he'; simp at he'
    · rename_i e he
      rw [failedResources_eq] at h
      rw [genLoop_mem h]
      constructor
      · rintro ⟨i, hi, k, o, hl, hx⟩
        exact ⟨es, hp, .inr ⟨e, he, i, hi, k, o, hl, by simpa using hx⟩⟩
      · rintro ⟨es', hp', h'⟩
        rw [hp] at hp'
        simp only [Prog.prog.injEq] at hp'
        subst hp'
        rcases h' with ⟨e', i0', he', _⟩ | ⟨e', he', i, hi, k, o, hl, rfl⟩
        · rw [he] at he'; simp at he'
        · rw [he] at he'
          simp only [ProgOutcome.failed.injEq] at he'
          subst he'
          exact ⟨i, hi, k, o, hl, by simp⟩

theorem inhibitorList_split {sem : Sem J I E R} {lk : I → Option (J × Outcome)}
    {res : List (I × List R)} {j : J} {l : List (Inhibitor J E)}
    (h : inhibitorList sem lk res j = .ok l) :
    ∃ a b c, resourcePart sem lk res j = .ok a ∧ directLoop lk (sem.direct j) = .ok b ∧
      afterLoop lk (sem.after j) = .ok c ∧ l = a ++ b ++ c := by
  unfold inhibitorList at h
  split at h
  · simp at h
  · rename_i a ha
    split at h
    · simp at h
    · rename_i b hb
      split at h
      · simp at h
      · rename_i c hc
        simp only [Except.ok.injEq] at h
        exact ⟨a, b, c, ha, hb, hc, h.symm⟩

/-- When every id a job mentions has a state and its program compiles, its inhibitors can be
computed. -/
theorem inhibitorList_ok (sem : Sem J I E R) (lk : I → Option (J × Outcome))
    (res : List (I × List R)) (j : J) (hbad : sem.prog j ≠ .bad)
    (h1 : ∀ i ∈ sem.direct j, (lk i).isSome = true) (h2 : ∀ i ∈ sem.after j, (lk i).isSome = true)
    (h3 : ∀ i ∈ sem.resDeps j, (lk i).isSome = true) : ∃ l, inhibitorList sem lk res j = .ok l := by
  have hr : ∃ a, resourcePart sem lk res j = .ok a := by
    unfold resourcePart
    split
    · exact ⟨[], rfl⟩
    · rename_i h; exact absurd h hbad
    · rename_i es hp
      have h3' : ∀ e ∈ es, ∀ i ∈ sem.expr.resIds e, (lk i).isSome = true := by
        intro e he i hi
        apply h3
        simp only [Sem.resDeps, hp, List.mem_flatMap]
        exact ⟨e, he, hi⟩
      split
      · exact ⟨[], rfl⟩
      · rename_i e i0 he
        rw [pendingResources_eq]
        apply genLoop_ok
        apply h3'
        have := (Resource.C18_program sem.expr res es).2.2.1 e i0 he
        exact this.1
      · rename_i e he
        rw [failedResources_eq]
        apply genLoop_ok
        apply h3'
        obtain ⟨_, pre, post, heq, _⟩ := (Resource.C18_program sem.expr res es).2.2.2 e he
        rw [heq]; simp
  obtain ⟨a, ha⟩ := hr
  obtain ⟨b, hb⟩ : ∃ b, directLoop (E := E) lk (sem.direct j) = .ok b := by
    rw [directLoop_eq]; exact genLoop_ok _ _ _ h1
  obtain ⟨c, hc⟩ : ∃ c, afterLoop (E := E) lk (sem.after j) = .ok c := by
    rw [afterLoop_eq]; exact genLoop_ok _ _ _ h2
  exact ⟨a ++ b ++ c, by simp [inhibitorList, ha, hb, hc]⟩

/-! ## Recomputing readiness -/

/-- Everything in a state except the inhibitors. -/
def core (p : I × JobState J E R) : I × J × Result R × List (Result R) × Int :=
  (p.1, p.2.job, p.2.result, p.2.history, p.2.attempts)

theorem core_modify_drop (st : List (I × JobState J E R)) (k : I) :
    (modify st k dropUndesired).map core = st.map core := by
  simp only [modify, List.map_map]
  apply List.map_congr_left
  intro p _
  simp only [Function.comp]
  split <;> rfl

theorem core_modify_add (st : List (I × JobState J E R)) (k : I) (l : List (Inhibitor J E)) :
    (modify st k (addInhib l)).map core = st.map core := by
  simp only [modify, List.map_map]
  apply List.map_congr_left
  intro p _
  simp only [Function.comp]
  split <;> rfl

theorem core_reset (st : List (I × JobState J E R)) : (resetAll st).map core = st.map core := by
  simp only [resetAll, List.map_map]
  apply List.map_congr_left
  intro p _
  rfl

theorem core_lookup {st st' : List (I × JobState J E R)} (h : st.map core = st'.map core) (i : I) :
    (st.lookup i).map (fun q => core (i, q)) = (st'.lookup i).map (fun q => core (i, q)) := by
  induction st generalizing st' with
  | nil => cases st' <;> simp_all
  | cons p st ih =>
    cases st' with
    | nil => simp at h
    | cons p' st' =>
      simp only [List.map_cons, List.cons.injEq] at h
      have hk : p.1 = p'.1 := by have := congrArg Prod.fst h.1; exact this
      rw [lookup_cons_if, lookup_cons_if, ← hk]
      by_cases hi : i = p.1
      · subst hi
        simp only [if_true, Option.map_some, Option.some.injEq]
        have h1 := h.1
        simp only [core, Prod.mk.injEq] at h1 ⊢
        exact ⟨trivial, h1.2⟩
      · simp only [hi, if_false]
        exact ih h.2

theorem core_look {st st' : List (I × JobState J E R)} (h : st.map core = st'.map core) :
    look st = look st' := by
  funext i
  have := core_lookup h i
  simp only [look]
  cases h1 : st.lookup i <;> cases h2 : st'.lookup i <;> simp_all [core]

theorem core_keys {st st' : List (I × JobState J E R)} (h : st.map core = st'.map core) :
    st.map Prod.fst = st'.map Prod.fst := by
  have := congrArg (List.map Prod.fst) h
  simp only [List.map_map] at this
  exact this

theorem recomputeLoop_core (sem : Sem J I E R) (res : List (I × List R)) : ∀ (js : List J)
    (st : List (I × JobState J E R)), (recomputeLoop sem res js st).1.map core = st.map core := by
  intro js
  induction js with
  | nil => intro st; rfl
  | cons j js ih =>
    intro st
    simp only [recomputeLoop]
    split
    · rfl
    · split
      · split
        · exact core_modify_drop _ _
        · rw [ih, core_modify_add, core_modify_drop]
      · rfl

/-- The loop over the run list, when nothing raises. -/
theorem recomputeLoop_ok {sem : Sem J I E R} {res : List (I × List R)} : ∀ {js : List J}
    {st st' : List (I × JobState J E R)},
    (js.map sem.id).Nodup → (∀ j ∈ js, ∀ q, st.lookup (sem.id j) = some q → q.inhib = [undesired]) →
    recomputeLoop sem res js st = (st', none) →
    (∀ j ∈ js, ∃ q, st'.lookup (sem.id j) = some q ∧
      inhibitorList sem (look st) res j = .ok q.inhib) ∧
    (∀ i, i ∉ js.map sem.id → st'.lookup i = st.lookup i) := by
  intro js
  induction js with
  | nil => intro st st' _ _ h; simp only [recomputeLoop, Prod.mk.injEq] at h; simp [h.1]
  | cons j js ih =>
    intro st st' hnd hu h
    simp only [recomputeLoop] at h
    split at h
    · simp at h
    · rename_i q hq
      split at h
      · split at h
        · simp at h
        · rename_i l hl
          simp only [List.map_cons, List.nodup_cons] at hnd
          have hcore := core_modify_drop st (sem.id j)
          rw [core_look hcore] at hl
          have hlook : look (modify (modify st (sem.id j) dropUndesired) (sem.id j) (addInhib l))
              = look st := core_look (by rw [core_modify_add, core_modify_drop])
          have hne : ∀ k ∈ js, sem.id k ≠ sem.id j := by
            intro k hk hc
            exact hnd.1 (hc ▸ List.mem_map.mpr ⟨k, hk, rfl⟩)
          obtain ⟨h1, h2⟩ := ih hnd.2 (by
            intro k hk q' hq'
            rw [lookup_modify, lookup_modify] at hq'
            simp only [hne k hk, if_false] at hq'
            exact hu k (by simp [hk]) q' hq') h
          rw [hlook] at h1
          constructor
          · intro k hk
            rcases List.mem_cons.mp hk with rfl | hk
            · have := h2 (sem.id k) hnd.1
              rw [lookup_modify, lookup_modify] at this
              simp only [if_true, hq, Option.map_some] at this
              refine ⟨_, this, ?_⟩
              have hqi := hu k (by simp) q hq
              simp [addInhib, dropUndesired, hqi, hl]
            · exact h1 k hk
          · intro i hi
            simp only [List.map_cons, List.mem_cons, not_or] at hi
            rw [h2 i hi.2, lookup_modify, lookup_modify]
            simp [hi.1]
      · simp at h

theorem recomputeLoop_total {sem : Sem J I E R} {res : List (I × List R)} : ∀ {js : List J}
    {st : List (I × JobState J E R)},
    (js.map sem.id).Nodup → (∀ j ∈ js, ∃ q, st.lookup (sem.id j) = some q ∧ q.inhib = [undesired]) →
    (∀ j ∈ js, ∃ l, inhibitorList sem (look st) res j = .ok l) →
    (recomputeLoop sem res js st).2 = none := by
  intro js
  induction js with
  | nil => intro st _ _ _; rfl
  | cons j js ih =>
    intro st hnd hu hl
    simp only [recomputeLoop]
    obtain ⟨q, hq, hqi⟩ := hu j (by simp)
    obtain ⟨l, hl0⟩ := hl j (by simp)
    rw [hq]
    simp only [hqi, List.mem_singleton, if_true]
    rw [core_look (core_modify_drop st (sem.id j)), hl0]
    simp only
    simp only [List.map_cons, List.nodup_cons] at hnd
    have hlook : look (modify (modify st (sem.id j) dropUndesired) (sem.id j) (addInhib l))
        = look st := core_look (by rw [core_modify_add, core_modify_drop])
    apply ih hnd.2
    · intro k hk
      have hne : sem.id k ≠ sem.id j := by
        intro hc
        exact hnd.1 (hc ▸ List.mem_map.mpr ⟨k, hk, rfl⟩)
      rw [lookup_modify, lookup_modify]
      simp only [hne, if_false]
      exact hu k (by simp [hk])
    · intro k hk
      rw [hlook]
      exact hl k (by simp [hk])

theorem lookup_reset (st : List (I × JobState J E R)) (i : I) :
    (resetAll st).lookup i = (st.lookup i).map fun q => { q with inhib := [undesired] } := by
  induction st with
  | nil => rfl
  | cons p st ih =>
    simp only [resetAll, List.map_cons] at ih ⊢
    rw [lookup_cons_if, lookup_cons_if, ih]
    by_cases hi : i = p.1 <;> simp [hi]

end Verif.Session
