import Verif.Lemmas.Device

/-!
# C46, C60, C61: units and providers of a device context

* `C46_once`: no unit is there twice.
* `C46_present_partial`, `C46_remove`, `C46_remove_partial`: adding a unit that is there, removing it.
* `C46_twice`: what a refused add leaves behind when the unit is known.
* `C46_unrecorded`, `C46_sibling_violated`, `C46_refused_violated`, `C46_generated_violated`,
  `C46_namespace_violated`: where the property fails.
* `C60_partial`, `C60_violated`, `C60_witness`: adding a provider.
* `C61_partial`, `C61_violated`: looking a unit up.

`WF` and `Initial` (Verif/Lemmas/Device.lean) say which units there can be: equal checksums mean the same
unit, only jobs can share an id with another unit, and then only with a job.
-/

namespace Verif.Device

set_option linter.unusedSectionVars false

open Session (setKey delKey lookup_setKey lookup_delKey)

variable {U C I P : Type} [DecidableEq C] [DecidableEq I] [DecidableEq P]

mutual

theorem addTree_units (w : World U C I P) (rc : Bool) : ∀ (t : Tree U) (s : Ctx U C I P) (v : U),
    v ∈ (w.addTree rc s t).1.units → v ∈ s.units ∨ v ∈ t.nodes
  | .node u kids, s, v => by
    rw [World.addTree, finish_fst]
    intro h
    split at h
    · rcases addForest_units w rc kids _ v h with h | h
      · simp only [World.register, List.mem_append, List.mem_singleton] at h
        rcases h with h | rfl
        · exact .inl h
        · exact .inr (by simp [Tree.nodes])
      · exact .inr (by simp [Tree.nodes, h])
    · split at h
      · exact .inl h
      · rcases addForest_units w rc kids _ v h with h | h
        · exact .inl h
        · exact .inr (by simp [Tree.nodes, h])

theorem addForest_units (w : World U C I P) (rc : Bool) : ∀ (ts : List (Tree U)) (s : Ctx U C I P) (v : U),
    v ∈ (w.addForest rc s ts).1.units → v ∈ s.units ∨ v ∈ nodesOf ts
  | [], s, v => fun h => .inl h
  | t :: ts, s, v => by
    intro h
    have h' := addTree_units w rc t s v
    rw [World.addForest] at h
    split at h
    · rename_i s' e he
      rw [he] at h'
      rcases h' h with h | h
      · exact .inl h
      · exact .inr (by simp [nodesOf, h])
    · rename_i s' he
      rw [he] at h'
      rcases addForest_units w rc ts s' v h with h | h
      · rcases h' h with h | h
        · exact .inl h
        · exact .inr (by simp [nodesOf, h])
      · exact .inr (by simp [nodesOf, h])

end

/-- `u` is recorded as added when it is there. -/
def Rec (w : World U C I P) (u : U) (s : Ctx U C I P) : Prop := u ∈ s.units → w.sum u ∈ s.sums

/-- No job has `u` as a sibling. -/
def NoSibling (w : World U C I P) (u : U) : Prop := ∀ v, u ∉ nodesOf (w.kids v)

theorem stateAdd_rec {w : World U C I P} {u : U} (hu : NoSibling w u) {s : Ctx U C I P} (h : Rec w u s) (rc : Bool)
    (v : U) (hv : u = v → w.sum u ∈ s.sums) : Rec w u (w.stateAdd rc s v).1 ∧ (w.stateAdd rc s v).1.sums = s.sums := by
  unfold World.stateAdd
  split
  · have he := addTree_ext w rc (.node v (w.kids v)) s
    refine ⟨?_, he.sums⟩
    intro hm
    rw [he.sums]
    rcases addTree_units w rc _ s u hm with hm | hm
    · exact h hm
    · simp only [Tree.nodes, List.mem_cons] at hm
      rcases hm with hm | hm
      · exact hv hm
      · exact absurd hm (hu v)
  · refine ⟨?_, rfl⟩
    intro hm
    simp only [List.mem_append, List.mem_singleton] at hm
    rcases hm with hm | hm
    · exact h hm
    · exact hv hm

theorem add_rec {w : World U C I P} {u : U} (hu : NoSibling w u) {s : Ctx U C I P} (h : Rec w u s) (rc : Bool) (v : U) :
    Rec w u (w.add rc s v).1 := by
  unfold World.add
  split
  · exact h
  · refine (stateAdd_rec hu (s := { s with sums := s.sums ++ [w.sum v] }) ?_ rc v ?_).1
    · intro hm
      simp [h hm]
    · rintro rfl
      simp

theorem addUnits_rec {w : World U C I P} {u : U} (hu : NoSibling w u) (us : List U) : ∀ {s : Ctx U C I P}, Rec w u s →
    Rec w u (w.addUnits s us).1 := by
  induction us with
  | nil => exact fun h => h
  | cons x us ih =>
    intro s h
    have h' := add_rec hu h false x
    rw [World.addUnits]
    split
    · rename_i s' e he
      rw [he] at h'
      exact h'
    · rename_i s' he
      rw [he] at h'
      exact ih h'

theorem provider_rec {w : World U C I P} {u : U} (hu : NoSibling w u) {s : Ctx U C I P} (h : Rec w u s) (p : P) (a : Bool) :
    Rec w u (w.addProvider s p a).1 := by
  unfold World.addProvider
  split
  · exact h
  · have h2 : Rec w u (if a then w.addUnits { s with providers := s.providers ++ [p] } (w.unitsOf p)
        else ({ s with providers := s.providers ++ [p] }, none)).1 := by
      split
      · exact addUnits_rec hu _ h
      · exact h
    dsimp only
    split
    · rename_i s2 e he
      rw [he] at h2
      exact h2
    · rename_i s2 he
      rw [he] at h2
      split <;> exact h2

theorem remove_rec {w : World U C I P} (hw : WF w) {u : U} {s : Ctx U C I P} (hi : Inv w s) (h : Rec w u s) (v : U) :
    Rec w u (w.remove s v).1 := by
  by_cases hv : v ∈ s.units
  · by_cases hs : w.sum v ∈ s.sums
    · rw [remove_eq hw hi hv hs]
      intro hm
      simp only [World.without] at hm ⊢
      rw [mem_drop hw hi.nodup] at hm
      simp only [List.mem_filter, decide_eq_true_eq, ne_eq]
      exact ⟨h hm.1, fun e => hm.2 (hw.inj u v e)⟩
    · unfold World.remove
      simp only [(has_iff hw _ _).2 hv, hs, not_false_eq_true, Bool.not_true, Bool.false_eq_true, if_false, if_true]
      exact h
  · unfold World.remove
    have : w.has s.units v = false := by
      rw [Bool.eq_false_iff]
      exact fun e => hv ((has_iff hw _ _).1 e)
    simp only [this, Bool.not_false, if_true]
    exact h

theorem run_rec {w : World U C I P} (hw : WF w) {u : U} (hu : NoSibling w u) (ops : List (Op U I P)) :
    ∀ {s : Ctx U C I P}, Inv w s → Rec w u s → (∀ op ∈ ops, JobsOnly w op) → Op.generate u ∉ ops →
      Rec w u (w.run s ops) := by
  induction ops with
  | nil => exact fun _ h _ _ => h
  | cons op ops ih =>
    intro s hi h ho hg
    refine ih (hi.step hw op (ho op (by simp))) ?_ (fun o hm => ho o (by simp [hm])) (fun hm => hg (by simp [hm]))
    cases op with
    | add v rc => exact add_rec hu h rc v
    | remove v => exact remove_rec hw hi h v
    | provider p a => exact provider_rec hu h p a
    | generate v =>
      refine (stateAdd_rec hu h true v ?_).1
      rintro rfl
      exact absurd (List.mem_cons_self) hg
    | select ids => exact h

/-! ## C46 -/

/-- **C46**, each unit once: after any history, with exceptions or without, the unit list holds each unit
at most once, provided that only jobs are generated. -/
theorem C46_once {w : World U C I P} (hw : WF w) {l : List U} (hl : Initial w l) (ops : List (Op U I P))
    (ho : ∀ op ∈ ops, JobsOnly w op) : ((w.run (w.init l) ops).units.map w.sum).Nodup :=
  ((Inv.init hw hl).run hw ops ho).nodup

/-- **C46**, adding a unit that is there: it raises `ValueError` and changes nothing, for a unit that no job
has as its sibling and that was not generated.  (Files and packaging metadata raise `AttributeError`.) -/
theorem C46_present_partial {w : World U C I P} (hw : WF w) {l : List U} (hl : Initial w l) (ops : List (Op U I P))
    (ho : ∀ op ∈ ops, JobsOnly w op) (u : U) (hn : NoSibling w u) (hg : Op.generate u ∉ ops) (hk : w.kind u ≠ .bare)
    (hu : u ∈ (w.run (w.init l) ops).units) (rc : Bool) :
    w.add rc (w.run (w.init l) ops) u = (w.run (w.init l) ops, some .twice) := by
  have h0 : Rec w u (w.init l) := fun hm => List.mem_map_of_mem hm
  have h := run_rec hw hn ops (Inv.init hw hl) h0 ho hg hu
  unfold World.add
  simp only [h, if_true, hk, if_false]

/-- **C46**, a refused add of a known unit changes nothing; it is refused if and only if its checksum is
recorded. -/
theorem C46_twice (w : World U C I P) (rc : Bool) (s : Ctx U C I P) (u : U) :
    ((w.add rc s u).2 = some .twice ∨ (w.add rc s u).2 = some .noId → (w.add rc s u).1 = s) ∧
    (w.sum u ∈ s.sums → (w.add rc s u).1 = s ∧ (w.add rc s u).2 = some (if w.kind u = .bare then .noId else .twice)) := by
  constructor
  · intro h
    unfold World.add at h ⊢
    split
    · rfl
    · rename_i hn
      exfalso
      simp only [hn, if_false] at h
      have key : ∀ s', (w.stateAdd rc s' u).2 ≠ some .twice ∧ (w.stateAdd rc s' u).2 ≠ some .noId := by
        intro s'
        unfold World.stateAdd
        split
        · exact tree_err w rc _ s'
        · simp
      rcases h with h | h
      · exact (key _).1 h
      · exact (key _).2 h
  · intro h
    unfold World.add
    simp [h]
where
  /-- Adding jobs raises neither of these. -/
  tree_err (w : World U C I P) (rc : Bool) (t : Tree U) (s : Ctx U C I P) :
      (w.addTree rc s t).2 ≠ some .twice ∧ (w.addTree rc s t).2 ≠ some .noId := by
    match t with
    | .node u kids =>
      have hf : ∀ s, (w.addForest rc s kids).2 ≠ some .twice ∧ (w.addForest rc s kids).2 ≠ some .noId :=
        fun s => forest_err w rc kids s
      have hfin : ∀ r : Ctx U C I P × Option Err, r.2 ≠ some .twice ∧ r.2 ≠ some .noId →
          (w.finish rc r).2 ≠ some .twice ∧ (w.finish rc r).2 ≠ some .noId := by
        intro r hr
        unfold World.finish
        split
        · simp
        · exact hr
      rw [World.addTree]
      apply hfin
      split
      · exact hf _
      · split
        · simp
        · exact hf _
  /-- Adding jobs raises neither of these. -/
  forest_err (w : World U C I P) (rc : Bool) (ts : List (Tree U)) (s : Ctx U C I P) :
      (w.addForest rc s ts).2 ≠ some .twice ∧ (w.addForest rc s ts).2 ≠ some .noId := by
    match ts with
    | [] => rw [World.addForest]; simp
    | t :: ts =>
      have ht := tree_err w rc t s
      rw [World.addForest]
      split
      · rename_i s' e he
        rw [he] at ht
        exact ht
      · exact forest_err w rc ts _

/-- **C46**, removal: after any history a unit that is there can be removed if and only if its checksum is
recorded and, for a job, readiness can be recomputed afterwards.  Then exactly this unit is gone, and it can be
added again. -/
theorem C46_remove {w : World U C I P} (hw : WF w) {l : List U} (hl : Initial w l) (ops : List (Op U I P))
    (ho : ∀ op ∈ ops, JobsOnly w op) (u : U) (hu : u ∈ (w.run (w.init l) ops).units) :
    ((w.remove (w.run (w.init l) ops) u).2 = none ↔ w.sum u ∈ (w.run (w.init l) ops).sums ∧
      (w.kind u = .job → w.fails (w.remove (w.run (w.init l) ops) u).1 = false)) ∧
    (w.sum u ∈ (w.run (w.init l) ops).sums →
      (∀ v, v ∈ (w.remove (w.run (w.init l) ops) u).1.units ↔ v ∈ (w.run (w.init l) ops).units ∧ v ≠ u) ∧
      w.sum u ∉ (w.remove (w.run (w.init l) ops) u).1.sums ∧
      (w.remove (w.run (w.init l) ops) u).1.run = (w.run (w.init l) ops).run) := by
  have hi := (Inv.init hw hl).run hw ops ho
  generalize w.run (w.init l) ops = s at *
  by_cases hs : w.sum u ∈ s.sums
  · rw [remove_eq hw hi hu hs]
    refine ⟨?_, fun _ => ⟨fun v => mem_drop hw hi.nodup u v, by simp [World.without], rfl⟩⟩
    simp only [hs, true_and]
    constructor
    · intro h hk
      simp only [hk, true_and, ite_eq_right_iff, reduceCtorEq, imp_false, Bool.not_eq_true] at h
      exact h
    · intro h
      rw [if_neg]
      rintro ⟨a, b⟩
      rw [h a] at b
      cases b
  · refine ⟨?_, fun h => absurd h hs⟩
    unfold World.remove
    simp [(has_iff hw _ _).2 hu, hs]

/-- **C46**, removal of units that the application added: it succeeds, unless the unit is a job of the run list
or recomputing readiness fails for another reason. -/
theorem C46_remove_partial {w : World U C I P} (hw : WF w) {l : List U} (hl : Initial w l) (ops : List (Op U I P))
    (ho : ∀ op ∈ ops, JobsOnly w op) (u : U) (hn : NoSibling w u) (hg : Op.generate u ∉ ops)
    (hu : u ∈ (w.run (w.init l) ops).units)
    (hrun : w.kind u = .job → w.id u ∉ (w.run (w.init l) ops).run)
    (hok : ∀ i ∈ (w.run (w.init l) ops).run, ∃ v ∈ (w.run (w.init l) ops).units, w.kind v = .job ∧ w.id v = i)
    (hbad : w.bad (w.remove (w.run (w.init l) ops) u).1 = false) :
    (w.remove (w.run (w.init l) ops) u).2 = none := by
  have h0 : Rec w u (w.init l) := fun hm => List.mem_map_of_mem hm
  have hs := run_rec hw hn ops (Inv.init hw hl) h0 ho hg hu
  have hi := (Inv.init hw hl).run hw ops ho
  obtain ⟨h1, h2⟩ := C46_remove hw hl ops ho u hu
  rw [h1]
  refine ⟨hs, fun hk => ?_⟩
  have hi' := hi.remove hw u
  have hun := (h2 hs).1
  have hr := (h2 hs).2.2
  unfold World.fails
  rw [hbad, Bool.or_false, hr, List.any_eq_false]
  intro i him
  obtain ⟨v, hv, hvk, hvi⟩ := hok i him
  have hvu : v ≠ u := by
    rintro rfl
    exact hrun hk (hvi ▸ him)
  rw [(hi'.states i v).2 ⟨(hun v).2 ⟨hv, hvu⟩, hvk, hvi⟩]
  simp

/-- **C46** does not hold for jobs of the run list: the call raises, with the job gone. -/
theorem C46_run_violated {w : World U C I P} (hw : WF w) {l : List U} (hl : Initial w l) (ops : List (Op U I P))
    (ho : ∀ op ∈ ops, JobsOnly w op) (u : U) (hu : u ∈ (w.run (w.init l) ops).units) (hk : w.kind u = .job)
    (hr : w.id u ∈ (w.run (w.init l) ops).run) (hs : w.sum u ∈ (w.run (w.init l) ops).sums) :
    (w.remove (w.run (w.init l) ops) u).2 ≠ none ∧ u ∉ (w.remove (w.run (w.init l) ops) u).1.units := by
  obtain ⟨h1, h2⟩ := C46_remove hw hl ops ho u hu
  have hi' := ((Inv.init hw hl).run hw ops ho).remove hw u
  refine ⟨?_, fun h => ((h2 hs).1 u |>.1 h).2 rfl⟩
  intro h
  have hf := (h1.1 h).2 hk
  unfold World.fails at hf
  rw [Bool.or_eq_false_iff, List.any_eq_false] at hf
  have := hf.1 (w.id u) (by rw [(h2 hs).2.2]; exact hr)
  have hne : (w.remove (w.run (w.init l) ops) u).1.states.lookup (w.id u) ≠ none := by
    intro e; rw [e] at this; exact this rfl
  obtain ⟨v, hv⟩ := Option.ne_none_iff_exists'.1 hne
  obtain ⟨a, b, c⟩ := (hi'.states _ _).1 hv
  obtain ⟨d, e⟩ := ((h2 hs).1 v).1 a
  have hi := (Inv.init hw hl).run hw ops ho
  have e1 := (hi.states (w.id u) v).2 ⟨d, b, c⟩
  have e2 := (hi.states (w.id u) u).2 ⟨hu, hk, rfl⟩
  rw [e2] at e1
  simp only [Option.some.injEq] at e1
  exact e e1.symm

/-- **C46** does not hold for units whose checksum is not recorded, that is for siblings and generated jobs:
removing such a unit raises `KeyError` and changes nothing, and adding it is not refused. -/
theorem C46_unrecorded {w : World U C I P} (hw : WF w) (s : Ctx U C I P) (u : U) (hu : u ∈ s.units)
    (hs : w.sum u ∉ s.sums) (rc : Bool) :
    w.remove s u = (s, some .missing) ∧ (w.add rc s u).2 ≠ some .twice := by
  constructor
  · unfold World.remove
    simp [(has_iff hw _ _).2 hu, hs]
  · intro h
    have h1 := (C46_twice w rc s u).1 (.inl h)
    have : w.sum u ∈ (w.add rc s u).1.sums := by
      unfold World.add
      simp only [hs, if_false]
      unfold World.stateAdd
      split
      · rw [(addTree_ext w rc _ _).sums]; simp
      · simp
    rw [h1] at this
    exact hs this

/-- **C46** does not hold for adds that clash with a job of the same id: the job is not there, but its checksum
stays recorded, and no add of it is accepted any more, whatever other units are added or removed, unless it
comes as a sibling or is generated. -/
theorem C46_refused_violated {w : World U C I P} (hw : WF w) {s : Ctx U C I P} (hi : Inv w s) (u v : U)
    (hk : w.kind u = .job) (hv : s.states.lookup (w.id u) = some v) (hne : w.sum u ≠ w.sum v) (hs : w.sum u ∉ s.sums)
    (rc : Bool) (hn : NoSibling w u) (ops : List (Op U I P)) (ho : ∀ op ∈ ops, JobsOnly w op) (hg : Op.generate u ∉ ops) :
    (w.add rc s u).2 ≠ none ∧ u ∉ (w.add rc s u).1.units ∧
    w.add rc (w.run (w.add rc s u).1 ops) u = (w.run (w.add rc s u).1 ops, some .twice) := by
  have hu : u ∉ s.units := by
    intro hu
    have := (hi.states (w.id u) u).2 ⟨hu, hk, rfl⟩
    rw [hv] at this
    simp only [Option.some.injEq] at this
    exact hne (by rw [this])
  have e : (w.add rc s u).1 = { s with sums := s.sums ++ [w.sum u] } ∧ (w.add rc s u).2 ≠ none := by
    unfold World.add World.stateAdd
    simp only [hs, hk, if_false, if_true]
    rw [World.addTree, finish_fst]
    simp only [hv, hne, ne_eq, not_false_eq_true, if_true, true_and]
    unfold World.finish
    split <;> simp
  have hi1 : Inv w (w.add rc s u).1 := hi.add hw rc u
  have hu1 : u ∉ (w.add rc s u).1.units := by rw [e.1]; exact hu
  have hs1 : w.sum u ∈ (w.add rc s u).1.sums := by rw [e.1]; simp
  refine ⟨e.2, hu1, ?_⟩
  have key := stays hw hn ops hi1 ho hg hu1 hs1
  have := (C46_twice w rc (w.run (w.add rc s u).1 ops) u).2 key.2
  simp only [hk, reduceCtorEq, if_false] at this
  exact Prod.ext this.1 this.2
where
  /-- A unit that is not there but recorded stays so. -/
  stays {w : World U C I P} (hw : WF w) {u : U} (hn : NoSibling w u) : ∀ (ops : List (Op U I P)) {s : Ctx U C I P},
      Inv w s → (∀ op ∈ ops, JobsOnly w op) → Op.generate u ∉ ops → u ∉ s.units → w.sum u ∈ s.sums →
      u ∉ (w.run s ops).units ∧ w.sum u ∈ (w.run s ops).sums
    | [], _, _, _, _, hu, hs => ⟨hu, hs⟩
    | op :: ops, s, hi, ho, hg, hu, hs => by
      have hst : ∀ rc (s' : Ctx U C I P) x, u ≠ x → u ∉ s'.units → w.sum u ∈ s'.sums →
          u ∉ (w.stateAdd rc s' x).1.units ∧ w.sum u ∈ (w.stateAdd rc s' x).1.sums := by
        intro rc s' x hx h1 h2
        refine ⟨?_, ?_⟩
        · intro hm
          unfold World.stateAdd at hm
          split at hm
          · rcases addTree_units w rc _ s' u hm with hm | hm
            · exact h1 hm
            · simp only [Tree.nodes, List.mem_cons] at hm
              rcases hm with hm | hm
              · exact hx hm
              · exact hn x hm
          · simp only [List.mem_append, List.mem_singleton] at hm
            rcases hm with hm | hm
            · exact h1 hm
            · exact hx hm
        · unfold World.stateAdd
          split
          · rw [(addTree_ext w rc _ s').sums]; exact h2
          · exact h2
      have hadd : ∀ rc (s' : Ctx U C I P) x, u ∉ s'.units → w.sum u ∈ s'.sums →
          u ∉ (w.add rc s' x).1.units ∧ w.sum u ∈ (w.add rc s' x).1.sums := by
        intro rc s' x h1 h2
        unfold World.add
        split
        · exact ⟨h1, h2⟩
        · rename_i hx
          exact hst rc _ x (fun e => hx (e ▸ h2)) h1 (by simp [h2])
      have hadds : ∀ (us : List U) (s' : Ctx U C I P), u ∉ s'.units → w.sum u ∈ s'.sums →
          u ∉ (w.addUnits s' us).1.units ∧ w.sum u ∈ (w.addUnits s' us).1.sums := by
        intro us
        induction us with
        | nil => exact fun _ h1 h2 => ⟨h1, h2⟩
        | cons x us ih =>
          intro s' h1 h2
          have h' := hadd false s' x h1 h2
          rw [World.addUnits]
          split
          · rename_i s2 e he
            rw [he] at h'
            exact h'
          · rename_i s2 he
            rw [he] at h'
            exact ih s2 h'.1 h'.2
      have hstep : u ∉ (w.step s op).1.units ∧ w.sum u ∈ (w.step s op).1.sums := by
        cases op with
        | add x rc => exact hadd rc s x hu hs
        | select ids => exact ⟨hu, hs⟩
        | generate x =>
          refine hst true s x ?_ hu hs
          rintro rfl
          exact hg (by simp)
        | provider p a =>
          unfold World.step World.addProvider
          dsimp only
          split
          · exact ⟨hu, hs⟩
          · have h2 : u ∉ (if a then w.addUnits { s with providers := s.providers ++ [p] } (w.unitsOf p)
                else ({ s with providers := s.providers ++ [p] }, none)).1.units ∧
                w.sum u ∈ (if a then w.addUnits { s with providers := s.providers ++ [p] } (w.unitsOf p)
                else ({ s with providers := s.providers ++ [p] }, none)).1.sums := by
              split
              · exact hadds _ _ hu hs
              · exact ⟨hu, hs⟩
            split
            · rename_i s2 e he
              rw [he] at h2
              exact h2
            · rename_i s2 he
              rw [he] at h2
              split <;> exact h2
        | remove x =>
          unfold World.step
          dsimp only
          by_cases hx : x ∈ s.units
          · by_cases hxs : w.sum x ∈ s.sums
            · rw [remove_eq hw hi hx hxs]
              refine ⟨fun hm => hu ((mem_drop hw hi.nodup x u).1 hm).1, ?_⟩
              simp only [World.without, List.mem_filter, decide_eq_true_eq, ne_eq]
              refine ⟨hs, fun e => ?_⟩
              rw [hw.inj u x e] at hu
              exact hu hx
            · unfold World.remove
              simp only [(has_iff hw _ _).2 hx, hxs, not_false_eq_true, Bool.not_true, Bool.false_eq_true, if_false, if_true]
              exact ⟨hu, hs⟩
          · unfold World.remove
            have : w.has s.units x = false := by
              rw [Bool.eq_false_iff]
              exact fun e => hx ((has_iff hw _ _).1 e)
            simp only [this, Bool.not_false, if_true]
            exact ⟨hu, hs⟩
      exact stays hw hn ops (hi.step hw op (ho op (by simp))) (fun o hm => ho o (by simp [hm]))
        (fun hm => hg (by simp [hm])) hstep.1 hstep.2

/-! ## C60: adding a provider -/

/-- A job whose add did not raise is there. -/
theorem stateAdd_there {w : World U C I P} (hw : WF w) {s : Ctx U C I P} (h : Inv w s) (rc : Bool) (u : U)
    (ho : w.kind u ≠ .job → u ∉ s.units ∧ w.sum u ∈ s.sums) (hok : (w.stateAdd rc s u).2 = none) :
    u ∈ (w.stateAdd rc s u).1.units := by
  have hi := h.stateAdd hw rc u ho
  by_cases hk : w.kind u = .job
  · have e : w.stateAdd rc s u = w.addTree rc s (.node u (w.kids u)) := by
      unfold World.stateAdd; rw [if_pos hk]
    rw [e] at hok hi ⊢
    rw [World.addTree] at hok hi ⊢
    rw [finish_fst] at hi ⊢
    have hok' := finish_none hok
    split at hok'
    · rename_i hn
      obtain ⟨l, hl⟩ := (addForest_ext w rc (w.kids u) (w.register s u)).units
      rw [hl]
      simp [World.register]
    · rename_i v hv
      split at hok'
      · cases hok'
      · rename_i hne
        have := hw.inj u v (by simpa using hne)
        subst this
        have hu := ((h.states _ _).1 hv).1
        obtain ⟨l, hl⟩ := (addForest_ext w rc (w.kids u) s).units
        simp only [ne_eq, not_true_eq_false, if_false]
        rw [hl]
        simp [hu]
  · unfold World.stateAdd
    simp [hk]

theorem add_units_mono (w : World U C I P) (rc : Bool) (s : Ctx U C I P) (u : U) :
    ∀ v ∈ s.units, v ∈ (w.add rc s u).1.units := by
  intro v hv
  unfold World.add
  split
  · exact hv
  · unfold World.stateAdd
    split
    · obtain ⟨l, hl⟩ := (addTree_ext w rc (.node u (w.kids u)) { s with sums := s.sums ++ [w.sum u] }).units
      rw [hl]
      simp [hv]
    · simp [hv]

theorem addUnits_mono (w : World U C I P) (us : List U) : ∀ (s : Ctx U C I P), ∀ v ∈ s.units, v ∈ (w.addUnits s us).1.units := by
  induction us with
  | nil => exact fun _ _ h => h
  | cons u us ih =>
    intro s v hv
    have h := add_units_mono w false s u v hv
    rw [World.addUnits]
    split
    · rename_i s' e he
      rw [he] at h; exact h
    · rename_i s' he
      rw [he] at h; exact ih s' v h

/-- After adding units: either all are there, or the ones before the unit that raised. -/
theorem addUnits_there {w : World U C I P} (hw : WF w) (us : List U) : ∀ {s : Ctx U C I P}, Inv w s →
    ((w.addUnits s us).2 = none → ∀ u ∈ us, u ∈ (w.addUnits s us).1.units) := by
  induction us with
  | nil => intro s _ _ u hu; cases hu
  | cons x us ih =>
    intro s h hok u hu
    have hi := h.add hw false x
    rw [World.addUnits] at hok ⊢
    cases he : w.add false s x with
    | mk s' e =>
      rw [he] at hok hi
      cases e with
      | some e => cases hok
      | none =>
        dsimp only at hok hi ⊢
        rcases List.mem_cons.1 hu with rfl | hu
        · refine addUnits_mono w us s' u ?_
          have hx : w.sum u ∉ s.sums := by
            intro hx
            unfold World.add at he
            simp [hx] at he
          have e2 : w.add false s u = w.stateAdd false { s with sums := s.sums ++ [w.sum u] } u := by
            unfold World.add; rw [if_neg hx]
          have := stateAdd_there hw (h.grow (w.sum u)) false u
            (fun hk => ⟨fun hm => hx (h.sums u hm hk), by simp⟩) (by rw [← e2, he])
          rw [← e2, he] at this
          exact this
        · exact ih hi hok u hu

/-- **C60**, success: after any history, when adding a provider does not raise, the provider and all its units are
there. -/
theorem C60_partial {w : World U C I P} (hw : WF w) {l : List U} (hl : Initial w l) (ops : List (Op U I P))
    (ho : ∀ op ∈ ops, JobsOnly w op) (p : P) (hok : (w.addProvider (w.run (w.init l) ops) p true).2 = none) :
    p ∈ (w.addProvider (w.run (w.init l) ops) p true).1.providers ∧
    ∀ u ∈ w.unitsOf p, u ∈ (w.addProvider (w.run (w.init l) ops) p true).1.units := by
  have hi := (Inv.init hw hl).run hw ops ho
  generalize w.run (w.init l) ops = s at *
  have h1 : Inv w { s with providers := s.providers ++ [p] } := hi.congr rfl rfl rfl rfl rfl
  have h2 := addUnits_there hw (w.unitsOf p) h1
  have h3 := addUnits_providers w (w.unitsOf p) { s with providers := s.providers ++ [p] }
  unfold World.addProvider at hok ⊢
  split at hok
  · cases hok
  · rename_i hp
    simp only [hp, if_false, if_true] at hok ⊢
    cases he : w.addUnits { s with providers := s.providers ++ [p] } (w.unitsOf p) with
    | mk s2 e =>
      rw [he] at hok h2 h3
      cases e with
      | some e => cases hok
      | none =>
        dsimp only at hok h2 h3 ⊢
        split
        · rename_i hf
          rw [if_pos hf] at hok
          cases hok
        · exact ⟨by rw [h3]; simp, h2 rfl⟩
where
  /-- Adding units adds no provider. -/
  addUnits_providers (w : World U C I P) : ∀ (us : List U) (s : Ctx U C I P),
      (w.addUnits s us).1.providers = s.providers
    | [], _ => rfl
    | u :: us, s => by
      have h : (w.add false s u).1.providers = s.providers := by
        unfold World.add
        split
        · rfl
        · unfold World.stateAdd
          split
          · rw [(addTree_ext w false _ _).providers]
          · rfl
      rw [World.addUnits]
      split
      · rename_i s' e he
        rw [he] at h; exact h
      · rename_i s' he
        rw [he] at h; rw [addUnits_providers w us s']; exact h

/-- **C60** does not hold when a unit of the provider is refused: the provider and the units before it stay, and
the call cannot be repeated, whatever is done in between. -/
theorem C60_violated (w : World U C I P) (s : Ctx U C I P) (p : P) (pre : List U) (u : U) (post : List U) (hp : p ∉ s.providers)
    (he : w.unitsOf p = pre ++ u :: post)
    (hpre : (w.addUnits { s with providers := s.providers ++ [p] } pre).2 = none)
    (hbad : (w.add false (w.addUnits { s with providers := s.providers ++ [p] } pre).1 u).2 ≠ none) :
    (w.addProvider s p true).2 ≠ none ∧
    (w.addProvider s p true).1 = (w.add false (w.addUnits { s with providers := s.providers ++ [p] } pre).1 u).1 ∧
    p ∈ (w.addProvider s p true).1.providers := by
  have key : ∀ (pre : List U) (s : Ctx U C I P), (w.addUnits s pre).2 = none →
      (w.add false (w.addUnits s pre).1 u).2 ≠ none →
      w.addUnits s (pre ++ u :: post) = w.add false (w.addUnits s pre).1 u := by
    intro pre
    induction pre with
    | nil =>
      intro s _ h
      simp only [List.nil_append, World.addUnits] at h ⊢
      split
      · rename_i e; exact e.symm
      · rename_i e; rw [e] at h; exact absurd rfl h
    | cons x pre ih =>
      intro s h1 h2
      rw [List.cons_append, World.addUnits]
      rw [World.addUnits] at h1 h2 ⊢
      split
      · rename_i s' e' e
        rw [e] at h1
        cases h1
      · rename_i s' e
        rw [e] at h1 h2
        exact ih s' h1 h2
  have h := key pre _ hpre hbad
  have e : w.addProvider s p true = w.add false (w.addUnits { s with providers := s.providers ++ [p] } pre).1 u := by
    unfold World.addProvider
    rw [if_neg hp]
    simp only [if_true]
    rw [he, h]
    cases hc : w.add false (w.addUnits { s with providers := s.providers ++ [p] } pre).1 u with
    | mk a b =>
      rw [hc] at hbad
      cases b with
      | none => exact absurd rfl hbad
      | some b => rfl
  refine ⟨by rw [e]; exact hbad, by rw [e], ?_⟩
  rw [e]
  have h1 := C60_partial.addUnits_providers w pre { s with providers := s.providers ++ [p] }
  have h2 := C60_partial.addUnits_providers w (pre ++ u :: post) { s with providers := s.providers ++ [p] }
  rw [h] at h2
  rw [h2]
  simp

/-! ## C61: looking a unit up -/

/-- **C61**: after any history `get_unit` finds exactly the units that are there, provided that no two units but
jobs share an id. -/
theorem C61_partial {w : World U C I P} (hw : WF w) {l : List U} (hl : Initial w l) (ops : List (Op U I P))
    (ho : ∀ op ∈ ops, JobsOnly w op) (i : I) (u : U) :
    (w.run (w.init l) ops).getUnit i = some u ↔
      u ∈ (w.run (w.init l) ops).units ∧ (w.kind u = .job ∨ w.kind u = .withId) ∧ w.id u = i := by
  have h := ((Inv.init hw hl).run hw ops ho).idMap i u
  unfold Ctx.getUnit
  rw [h]
  cases w.kind u <;> simp [Kind.hasMap]

/-! ## Examples and counterexamples -/

/-- Units of the example. -/
inductive Ex where
  | parent | kid | rival | category | twin | same | file
deriving DecidableEq, Repr

/-- `parent` is a job with the sibling `kid`; `rival` is a job with the id of `parent`; `category` is another
unit; `file` has no id. -/
def exW : World Ex Nat Nat Nat where
  sum | .parent => 0 | .kid => 1 | .rival => 2 | .category => 3 | .twin => 4 | .same => 5 | .file => 6
  kind | .parent | .kid | .rival => .job | .file => .bare | _ => .withId
  id | .parent | .rival => 0 | .kid => 1 | .category => 3 | .twin => 4 | .same => 5 | .file => 6
  kids | .parent => [.node .kid []] | _ => []
  unitsOf | 0 => [.category, .parent] | _ => [.twin, .category, .same]
  bad _ := false

theorem exW_wf : WF exW := by
  constructor
  · intro u v; cases u <;> cases v <;> decide
  · intro u v; cases u <;> cases v <;> decide
  · intro u v
    cases u <;> simp [exW, nodesOf, Tree.nodes]
    rintro rfl; rfl

/-- The same with `twin` given the id of `category`, and `same` the fields of `category` in another namespace. -/
def exV : World Ex Nat Nat Nat :=
  { exW with id := fun | .twin => 3 | u => exW.id u, sum := fun | .same => 3 | u => exW.sum u }

/-- A history: `kid` comes with `parent`, units are removed and added again. -/
def exOps : List (Op Ex Nat Nat) :=
  [.provider 0 true, .select [0], .add .file true, .remove .category, .add .category false, .generate .parent]

example : Initial exW [] ∧ (∀ op ∈ exOps, JobsOnly exW op) ∧
    (exW.run (exW.init []) exOps).units = [.parent, .kid, .file, .category] ∧
    NoSibling exW .category ∧
    (exW.run (exW.init []) exOps).getUnit 1 = some .kid := by
  refine ⟨⟨by decide, by simp⟩, ?_, by decide, ?_, by decide⟩
  · intro op h
    simp only [exOps, List.mem_cons, List.not_mem_nil, or_false] at h
    rcases h with rfl | rfl | rfl | rfl | rfl | rfl <;> simp [JobsOnly, exW]
  · intro v
    cases v <;> simp [exW, nodesOf, Tree.nodes]

/-- The hypotheses of `C46_remove_partial` can be met. -/
example : (exW.remove (exW.run (exW.init []) exOps) .category).2 = none := by decide

/-- **C46** does not hold for siblings: `kid` is there, cannot be removed, and can be added. -/
theorem C46_sibling_violated :
    (exW.add true (exW.init []) .parent).2 = none ∧
    Ex.kid ∈ (exW.add true (exW.init []) .parent).1.units ∧
    exW.remove (exW.add true (exW.init []) .parent).1 .kid =
      ((exW.add true (exW.init []) .parent).1, some .missing) ∧
    (exW.add true (exW.add true (exW.init []) .parent).1 .kid).2 = none := by decide

/-- A case of `C46_refused_violated`: `rival` is refused because of `parent`, and refused again when `parent` is
gone. -/
example :
    (exW.add true (exW.init [.parent]) .rival).2 = some .clash ∧
    (exW.run (exW.init [.parent]) [.add .rival true, .remove .parent]).units = [] ∧
    (exW.step (exW.run (exW.init [.parent]) [.add .rival true, .remove .parent]) (.add .rival true)).2 =
      some .twice := by decide

/-- A case of `C46_run_violated`. -/
example : (exW.run (exW.init [.rival]) [.select [0]]).run = [0] ∧
    (exW.remove (exW.run (exW.init [.rival]) [.select [0]]) .rival).2 = some .recompute := by decide

/-- **C46** does not hold when a template makes units other than jobs: instantiated twice, the unit is there
twice. -/
theorem C46_generated_violated :
    (exW.run (exW.init []) [.generate .category, .generate .category]).units = [.category, .category] := by decide

/-- **C46** does not hold for units of different providers with the same fields: the second one is refused
although no unit of its id is there. -/
theorem C46_namespace_violated :
    (exV.add true (exV.init [.category]) .same).2 = some .twice ∧
    exV.id .same ≠ exV.id .category ∧ (exV.init [.category]).getUnit (exV.id .same) = none := by decide

/-- A refused file raises `AttributeError`. -/
example : (exW.add true (exW.init [.file]) .file).2 = some .noId := by decide

/-- **C60** does not hold: the second provider defines a category that is there already; of its units only the
first is added, the last one never, and the call cannot be repeated. -/
theorem C60_witness :
    (exW.addProvider (exW.run (exW.init []) [.provider 0 true]) 1 true).2 = some .twice ∧
    (exW.addProvider (exW.run (exW.init []) [.provider 0 true]) 1 true).1.units = [.category, .parent, .kid, .twin] ∧
    (exW.addProvider (exW.addProvider (exW.run (exW.init []) [.provider 0 true]) 1 true).1 1 true).2 =
      some .provider := by decide

/-- **C61** does not hold for units that share an id: removing one hides the other, which cannot be
removed properly. -/
theorem C61_violated :
    (exV.run (exV.init []) [.add .category true, .add .twin true, .remove .twin]).units = [.category] ∧
    (exV.run (exV.init []) [.add .category true, .add .twin true, .remove .twin]).getUnit 3 = none ∧
    (exV.remove (exV.run (exV.init []) [.add .category true, .add .twin true, .remove .twin]) .category).2 =
      some .missing := by decide

end Verif.Device
