import Verif.Lemmas.DepMgr

/-! The solution of the dependency solver does not depend on jobs outside of the solution, nor on
repeating the start of the list of visited jobs. -/

set_option linter.unusedSectionVars false
set_option linter.unusedSimpArgs false

namespace Verif.DepMgr

variable {J I : Type} [DecidableEq J] [DecidableEq I]

/-! ## Fuel -/

theorem depsLoop_mono {m : List (I × J)}
    {rec rec' : J → List J → St J I → Except (Err J I) (St J I)}
    (h : ∀ j t st, rec j t st ≠ .error .outOfFuel → rec' j t st = rec j t st) (job : J)
    (trail : List J) : ∀ (ds : List (DepType × I)) (st : St J I),
    depsLoop m rec job trail ds st ≠ .error .outOfFuel →
    depsLoop m rec' job trail ds st = depsLoop m rec job trail ds st := by
  intro ds
  induction ds with
  | nil => intro st _; rfl
  | cons d ds ih =>
    intro st hne
    obtain ⟨ty, i⟩ := d
    simp only [depsLoop] at hne ⊢
    cases hl : m.lookup i with
    | none => rfl
    | some next =>
      simp only [hl] at hne ⊢
      cases hr : rec next (trail ++ [next]) st with
      | error e =>
        rw [hr] at hne
        have : rec' next (trail ++ [next]) st = .error e := by
          rw [h _ _ _ (by rw [hr]; exact hne), hr]
        rw [this]
      | ok st' =>
        rw [hr] at hne
        have : rec' next (trail ++ [next]) st = .ok st' := by
          rw [h _ _ _ (by rw [hr]; simp), hr]
        rw [this]
        exact ih st' hne

theorem visit_mono {g : Graph J I} {m : List (I × J)} : ∀ (n k : Nat) (job : J) (trail : List J)
    (st : St J I), visit g m n job trail st ≠ .error .outOfFuel →
    visit g m (n + k) job trail st = visit g m n job trail st := by
  intro n
  induction n with
  | zero => intro k job trail st h; simp [visit] at h
  | succ n ih =>
    intro k job trail st h
    rw [show n + 1 + k = (n + k) + 1 by omega]
    simp only [visit] at h ⊢
    cases hc : st.color (g.id job) with
    | none => rfl
    | some c =>
      cases c with
      | gray => rfl
      | black => rfl
      | white =>
        simp only [hc] at h ⊢
        have hd : depsLoop m (visit g m (n + k)) job trail (g.deps job) (st.paint (g.id job) .gray) =
            depsLoop m (visit g m n) job trail (g.deps job) (st.paint (g.id job) .gray) := by
          apply depsLoop_mono
          · intro j t st' h'; exact ih k j t st' h'
          · intro hc'; rw [hc'] at h; simp at h
        rw [hd]

theorem solveLoop_mono {g : Graph J I} {m : List (I × J)} (n k : Nat) : ∀ (vs : List J)
    (st : St J I), solveLoop g m n vs st ≠ .error .outOfFuel →
    solveLoop g m (n + k) vs st = solveLoop g m n vs st := by
  intro vs
  induction vs with
  | nil => intro st _; rfl
  | cons v vs ih =>
    intro st h
    simp only [solveLoop] at h ⊢
    cases hv : visit g m n v [v] st with
    | error e =>
      rw [hv] at h
      rw [visit_mono n k v [v] st (by rw [hv]; exact h), hv]
    | ok st' =>
      rw [hv] at h
      rw [visit_mono n k v [v] st (by rw [hv]; simp), hv]
      exact ih st' h

/-! ## Simulation -/

/-- The solver over `A` and the solver over `B` are in corresponding states. -/
structure Sim (g : Graph J I) (A B : List J) (a b : St J I) : Prop where
  sol : b.solution = a.solution
  sub : ∀ x ∈ a.solution, x ∈ A
  black : ∀ i, a.color i = some .black → i ∈ a.solution.map g.id
  dark : ∀ i c, (c = .gray ∨ c = .black) → (a.color i = some c ↔ b.color i = some c)
  known : ∀ i, i ∈ B.map g.id → b.color i ≠ none

theorem Sim.paint {g : Graph J I} {A B : List J} {a b : St J I} (h : Sim g A B a b) (i : I) :
    Sim g A B (a.paint i .gray) (b.paint i .gray) := by
  refine ⟨h.sol, h.sub, ?_, ?_, ?_⟩
  · intro k hk
    simp only [St.paint] at hk
    split at hk
    · simp at hk
    · exact h.black k hk
  · intro k c hc
    simp only [St.paint]
    split
    · rfl
    · exact h.dark k c hc
  · intro k hk
    simp only [St.paint]
    split
    · simp
    · exact h.known k hk

theorem Sim.finish {g : Graph J I} {A B : List J} {a b : St J I} (h : Sim g A B a b) {j : J}
    (hj : j ∈ A) :
    Sim g A B { (a.paint (g.id j) .black) with solution := a.solution ++ [j] }
      { (b.paint (g.id j) .black) with solution := b.solution ++ [j] } := by
  refine ⟨by simp [h.sol], ?_, ?_, ?_, ?_⟩
  · intro x hx
    simp only [List.mem_append, List.mem_singleton] at hx
    rcases hx with hx | rfl
    · exact h.sub x hx
    · exact hj
  · intro k hk
    simp only [St.paint] at hk
    simp only [List.map_append, List.mem_append, List.map_cons, List.map_nil, List.mem_singleton]
    split at hk
    · right; assumption
    · left; exact h.black k hk
  · intro k c hc
    simp only [St.paint]
    split
    · rfl
    · exact h.dark k c hc
  · intro k hk
    simp only [St.paint]
    split
    · simp
    · exact h.known k hk

theorem visit_color {g : Graph J I} {m : List (I × J)} : ∀ (n : Nat) (job : J) (trail : List J)
    (st st' : St J I), visit g m n job trail st = .ok st' →
    st'.color (g.id job) = some .black := by
  intro n job trail st st' h
  cases n with
  | zero => simp [visit] at h
  | succ n =>
    simp only [visit] at h
    split at h
    · simp at h
    · split at h
      · simp at h
      · simp only [Except.ok.injEq] at h
        subst h
        simp [St.paint]
    · simp at h
    · simp only [Except.ok.injEq] at h
      subst h
      assumption

theorem depsLoop_grow {g : Graph J I} {m : List (I × J)}
    {rec : J → List J → St J I → Except (Err J I) (St J I)}
    (h : ∀ j t st st', rec j t st = .ok st' → ∃ more, st'.solution = st.solution ++ more)
    (job : J) (trail : List J) : ∀ (ds : List (DepType × I)) (st st' : St J I),
    depsLoop m rec job trail ds st = .ok st' → ∃ more, st'.solution = st.solution ++ more := by
  intro ds
  induction ds with
  | nil => intro st st' he; simp only [depsLoop, Except.ok.injEq] at he; exact ⟨[], by simp [he]⟩
  | cons d ds ih =>
    intro st st' he
    obtain ⟨ty, i⟩ := d
    simp only [depsLoop] at he
    split at he
    · simp at he
    · split at he
      · simp at he
      · rename_i st1 h1
        obtain ⟨m1, e1⟩ := h _ _ _ _ h1
        obtain ⟨m2, e2⟩ := ih st1 st' he
        exact ⟨m1 ++ m2, by rw [e2, e1, List.append_assoc]⟩

theorem visit_grow {g : Graph J I} {m : List (I × J)} : ∀ (n : Nat) (job : J) (trail : List J)
    (st st' : St J I), visit g m n job trail st = .ok st' →
    ∃ more, st'.solution = st.solution ++ more := by
  intro n
  induction n with
  | zero => intro job trail st st' h; simp [visit] at h
  | succ n ih =>
    intro job trail st st' h
    simp only [visit] at h
    split at h
    · simp at h
    · split at h
      · simp at h
      · rename_i st1 h1
        simp only [Except.ok.injEq] at h
        subst h
        obtain ⟨more, e⟩ := depsLoop_grow (g := g) (fun j t a b hab => ih j t a b hab) _ _ _ _ _ h1
        refine ⟨more ++ [job], ?_⟩
        simp only [St.paint] at e ⊢
        rw [e, List.append_assoc]
    · simp at h
    · simp only [Except.ok.injEq] at h
      subst h
      exact ⟨[], by simp⟩

section
variable {g : Graph J I} {A B : List J} {mA mB : List (I × J)}
  (hA : MapOK g A mA) (hB : MapOK g B mB)

include hA hB in
theorem depsLoop_sim (n : Nat)
    (ih : ∀ (job : J) (trail trail' : List J) (a a' b : St J I), job ∈ A → Sim g A B a b →
      visit g mA n job trail a = .ok a' → (∀ x ∈ a'.solution, x ∈ B) →
      ∃ b', visit g mB n job trail' b = .ok b' ∧ Sim g A B a' b')
    (job : J) (trail trail' : List J) :
    ∀ (ds : List (DepType × I)) (a a' b : St J I), Sim g A B a b →
      depsLoop mA (visit g mA n) job trail ds a = .ok a' → (∀ x ∈ a'.solution, x ∈ B) →
      ∃ b', depsLoop mB (visit g mB n) job trail' ds b = .ok b' ∧ Sim g A B a' b' := by
  intro ds
  induction ds with
  | nil =>
    intro a a' b h he _
    simp only [depsLoop, Except.ok.injEq] at he
    subst he
    exact ⟨b, rfl, h⟩
  | cons d ds ihd =>
    intro a a' b h he hB'
    obtain ⟨ty, i⟩ := d
    simp only [depsLoop] at he ⊢
    cases hl : mA.lookup i with
    | none => simp [hl] at he
    | some next =>
      simp only [hl] at he
      cases hv : visit g mA n next (trail ++ [next]) a with
      | error e => rw [hv] at he; simp at he
      | ok a1 =>
        rw [hv] at he
        simp only at he
        have hnext := hA.some' _ _ hl
        obtain ⟨more, hmore⟩ := depsLoop_grow (g := g) (fun j t x y hxy => visit_grow n j t x y hxy)
          _ _ _ _ _ he
        have hB1 : ∀ x ∈ a1.solution, x ∈ B := by
          intro x hx; apply hB'; rw [hmore]; simp [hx]
        obtain ⟨b1, hb1, hs1⟩ := ih next (trail ++ [next]) (trail' ++ [next]) a a1 b hnext.1 h hv hB1
        have hblk := hs1.black _ (visit_color n _ _ _ _ hv)
        obtain ⟨x, hx, hxid⟩ := List.mem_map.mp hblk
        have hxn : x = next := eq_of_id hA.nodup (hs1.sub x hx) hnext.1 hxid
        have hnB : next ∈ B := hxn ▸ hB1 x hx
        have hlB : mB.lookup i = some next := by
          cases hlb : mB.lookup i with
          | none =>
            exact absurd (List.mem_map.mpr ⟨next, hnB, hnext.2⟩) (hB.none' i hlb)
          | some y =>
            have hy := hB.some' _ _ hlb
            rw [eq_of_id hB.nodup hy.1 hnB (by rw [hy.2, hnext.2])]
        rw [hlB]
        simp only [hb1]
        exact ihd a1 a' b1 hs1 he hB'

include hA hB in
theorem visit_sim : ∀ (n : Nat) (job : J) (trail trail' : List J) (a a' b : St J I), job ∈ A →
    Sim g A B a b → visit g mA n job trail a = .ok a' → (∀ x ∈ a'.solution, x ∈ B) →
    ∃ b', visit g mB n job trail' b = .ok b' ∧ Sim g A B a' b' := by
  intro n
  induction n with
  | zero => intro job trail trail' a a' b _ _ h; simp [visit] at h
  | succ n ih =>
    intro job trail trail' a a' b hj h he hB'
    simp only [visit] at he ⊢
    cases hc : a.color (g.id job) with
    | none => rw [hc] at he; simp at he
    | some c =>
      rw [hc] at he
      cases c with
      | gray => simp at he
      | black =>
        simp only [Except.ok.injEq] at he
        subst he
        have := (h.dark (g.id job) .black (.inr rfl)).mp hc
        rw [this]
        exact ⟨b, rfl, h⟩
      | white =>
        simp only at he
        cases hd : depsLoop mA (visit g mA n) job trail (g.deps job) (a.paint (g.id job) .gray) with
        | error e => rw [hd] at he; simp at he
        | ok a1 =>
          rw [hd] at he
          simp only [Except.ok.injEq] at he
          have hsol : a'.solution = a1.solution ++ [job] := by rw [← he]; rfl
          have hjB : job ∈ B := hB' job (by rw [hsol]; simp)
          have hcb : b.color (g.id job) = some .white := by
            cases hb : b.color (g.id job) with
            | none => exact absurd hb (h.known _ (List.mem_map.mpr ⟨job, hjB, rfl⟩))
            | some c =>
              cases c with
              | white => rfl
              | gray =>
                have := (h.dark (g.id job) .gray (.inl rfl)).mpr hb
                rw [hc] at this; simp at this
              | black =>
                have := (h.dark (g.id job) .black (.inr rfl)).mpr hb
                rw [hc] at this; simp at this
          rw [hcb]
          obtain ⟨b1, hb1, hs1⟩ := depsLoop_sim hA hB n ih job trail trail' (g.deps job) _ a1 _
            (h.paint (g.id job)) hd (by intro x hx; apply hB'; rw [hsol]; simp [hx])
          simp only [hb1]
          refine ⟨_, rfl, ?_⟩
          rw [← he]
          exact hs1.finish hj

theorem solveLoop_grow (n : Nat) : ∀ (vs : List J) (st st' : St J I),
    solveLoop g mA n vs st = .ok st' → ∃ more, st'.solution = st.solution ++ more := by
  intro vs
  induction vs with
  | nil => intro st st' h; simp only [solveLoop, Except.ok.injEq] at h; exact ⟨[], by simp [h]⟩
  | cons v vs ih =>
    intro st st' h
    simp only [solveLoop] at h
    split at h
    · simp at h
    · rename_i st1 h1
      obtain ⟨m1, e1⟩ := visit_grow _ _ _ _ _ h1
      obtain ⟨m2, e2⟩ := ih st1 st' h
      exact ⟨m1 ++ m2, by rw [e2, e1, List.append_assoc]⟩

include hA hB in
theorem solveLoop_sim (n : Nat) : ∀ (vs : List J) (a a' b : St J I), (∀ v ∈ vs, v ∈ A) →
    Sim g A B a b → solveLoop g mA n vs a = .ok a' → (∀ x ∈ a'.solution, x ∈ B) →
    ∃ b', solveLoop g mB n vs b = .ok b' ∧ Sim g A B a' b' := by
  intro vs
  induction vs with
  | nil =>
    intro a a' b _ h he _
    simp only [solveLoop, Except.ok.injEq] at he
    subst he
    exact ⟨b, rfl, h⟩
  | cons v vs ih =>
    intro a a' b hv h he hB'
    simp only [solveLoop] at he ⊢
    cases h1 : visit g mA n v [v] a with
    | error e => rw [h1] at he; simp at he
    | ok a1 =>
      rw [h1] at he
      simp only at he
      obtain ⟨more, hm⟩ := solveLoop_grow n vs a1 a' he
      obtain ⟨b1, hb1, hs1⟩ := visit_sim hA hB n v [v] [v] a a1 b (hv v (by simp)) h h1
        (by intro x hx; apply hB'; rw [hm]; simp [hx])
      rw [hb1]
      exact ih a1 a' b1 (fun x hx => hv x (by simp [hx])) hs1 he hB'

end

theorem getJobMap_of_nodup {g : Graph J I} {jobs : List J} (h : (jobs.map g.id).Nodup) :
    ∃ m, getJobMap g jobs = .ok m := by
  have hs := getJobMapAux_spec (g := g) jobs [] (by simp)
  simp only [List.map_nil, List.nil_append] at hs
  unfold getJobMap
  cases he : getJobMapAux g jobs [] with
  | ok m => exact ⟨m, rfl⟩
  | error e =>
    rw [he] at hs
    obtain ⟨pre, a, mid, b, post, h1, h2, _⟩ := hs
    exfalso
    rw [h1] at h
    simp only [List.map_append, List.map_cons, List.append_assoc, List.cons_append,
      List.nodup_append, List.nodup_cons, List.mem_append, List.mem_cons, not_or] at h
    exact h.2.1.1.2.1 h2

/-- The solution is the same for every collection of jobs that contains it. -/
theorem resolve_congr {g : Graph J I} {A B vis run : List J} (hv : ∀ v ∈ vis, v ∈ A)
    (h : resolve g A (some vis) = .ok run) (hsub : ∀ x ∈ run, x ∈ B)
    (hnd : (B.map g.id).Nodup) : resolve g B (some vis) = .ok run := by
  have hspec := resolve_spec g A (some vis) (fun v hvv _ => hv v hvv)
  rw [h] at hspec
  have hvB : ∀ v ∈ vis, v ∈ B := fun v hvv => hsub v (hspec.2.1 v hvv)
  have hspecB := resolve_spec g B (some vis) (fun v hvv _ => hvB v hvv)
  unfold resolve at h
  cases hmA : getJobMap g A with
  | error e => simp [hmA] at h
  | ok mA =>
    simp only [hmA, Option.getD_some] at h
    cases hsA : solveLoop g mA (A.length + 1) vis (initSt g A) with
    | error e => simp [hsA] at h
    | ok a' =>
      simp only [hsA, Except.ok.injEq] at h
      obtain ⟨mB, hmB⟩ := getJobMap_of_nodup hnd
      have hinit : Sim g A B (initSt g A) (initSt g B) := by
        refine ⟨rfl, by simp [initSt], ?_, ?_, ?_⟩
        · intro i hi
          simp only [initSt] at hi
          split at hi <;> simp at hi
        · intro i c hc
          simp only [initSt]
          rcases hc with rfl | rfl <;> (split <;> split <;> simp)
        · intro i hi
          simp only [initSt]
          rw [if_pos hi]
          simp
      obtain ⟨b', hb', hs'⟩ := solveLoop_sim (getJobMap_ok hmA) (getJobMap_ok hmB) (A.length + 1)
        vis _ a' _ hv hinit hsA (by rw [h]; exact hsub)
      unfold resolve at hspecB ⊢
      simp only [hmB, Option.getD_some] at hspecB ⊢
      have hne : solveLoop g mB (B.length + 1) vis (initSt g B) ≠ .error .outOfFuel := by
        intro hc
        rw [hc] at hspecB
        exact hspecB.2
      have h1 := solveLoop_mono (B.length + 1) (A.length + 1) vis (initSt g B) hne
      have h2 := solveLoop_mono (g := g) (m := mB) (A.length + 1) (B.length + 1) vis (initSt g B)
        (by rw [hb']; simp)
      rw [show A.length + 1 + (B.length + 1) = B.length + 1 + (A.length + 1) by omega, h1, hb'] at h2
      rw [h2]
      simp only [hs'.sol, h]

/-! ## Visiting again -/

theorem solveLoop_append {g : Graph J I} {m : List (I × J)} (n : Nat) : ∀ (us vs : List J)
    (st : St J I), solveLoop g m n (us ++ vs) st =
      match solveLoop g m n us st with
      | .error e => .error e
      | .ok st' => solveLoop g m n vs st' := by
  intro us
  induction us with
  | nil => intro vs st; rfl
  | cons u us ih =>
    intro vs st
    simp only [List.cons_append, solveLoop]
    cases visit g m n u [u] st with
    | error e => rfl
    | ok st' => exact ih vs st'

theorem solveLoop_black {g : Graph J I} {m : List (I × J)} (n : Nat) : ∀ (us : List J) (st : St J I),
    (∀ u ∈ us, st.color (g.id u) = some .black) → solveLoop g m (n + 1) us st = .ok st := by
  intro us
  induction us with
  | nil => intro st _; rfl
  | cons u us ih =>
    intro st h
    simp only [solveLoop, visit, h u (by simp)]
    exact ih st (fun x hx => h x (by simp [hx]))

/-- Repeating the start of the list of visited jobs changes nothing. -/
theorem resolve_repeat {g : Graph J I} {A us vs run : List J} (hv : ∀ v ∈ us ++ vs, v ∈ A)
    (h : resolve g A (some (us ++ vs)) = .ok run) :
    resolve g A (some (us ++ (us ++ vs))) = .ok run := by
  unfold resolve at h ⊢
  cases hm : getJobMap g A with
  | error e => simp [hm] at h
  | ok m =>
    simp only [hm, Option.getD_some] at h ⊢
    rw [solveLoop_append] at h
    rw [solveLoop_append]
    have hspec := solveLoop_spec (vis := us) (getJobMap_ok hm) (A.length + 1) us (initSt g A)
      (fun v h => h) (fun v hvv _ => hv v (by simp [hvv])) (initSt_inv g A us) (initSt_gray g A)
      (by
        have : whites g A (initSt g A) ≤ A.length := List.countP_le_length
        omega)
    cases hs : solveLoop g m (A.length + 1) us (initSt g A) with
    | error e => rw [hs] at h; simp at h
    | ok st =>
      rw [hs] at h hspec
      simp only at h ⊢
      rw [solveLoop_append, solveLoop_black A.length us st hspec.2]
      exact h

end Verif.DepMgr
