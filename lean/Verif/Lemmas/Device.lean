import Verif.Model.Device
import Verif.Lemmas.Session

/-!
# Lemmas about the device context
-/

namespace Verif.Device

set_option linter.unusedSectionVars false

open Session (setKey delKey lookup_setKey lookup_delKey)

variable {U C I P : Type} [DecidableEq C] [DecidableEq I] [DecidableEq P]

mutual

/-- The jobs of a tree. -/
def Tree.nodes : Tree U → List U
  | .node u kids => u :: nodesOf kids

/-- The jobs of some trees. -/
def nodesOf : List (Tree U) → List U
  | [] => []
  | t :: ts => t.nodes ++ nodesOf ts

end

/-- Units with equal checksums are the same, no unit has the id of another one unless both are jobs, and
siblings are jobs. -/
structure WF (w : World U C I P) : Prop where
  inj : ∀ u v, w.sum u = w.sum v → u = v
  ids : ∀ u v, w.kind u = .withId → (w.kind v).hasMap = true → w.id u = w.id v → u = v
  kids : ∀ u, ∀ v ∈ nodesOf (w.kids u), w.kind v = .job

/-- Everything the context keeps agrees with the list of units. -/
structure Inv (w : World U C I P) (s : Ctx U C I P) : Prop where
  nodup : (s.units.map w.sum).Nodup
  jobsNodup : (s.jobs.map w.sum).Nodup
  states : ∀ i u, s.states.lookup i = some u ↔ u ∈ s.units ∧ w.kind u = .job ∧ w.id u = i
  jobs : ∀ u, u ∈ s.jobs ↔ u ∈ s.units ∧ w.kind u = .job
  idMap : ∀ i u, s.idMap.lookup i = some u ↔ u ∈ s.units ∧ (w.kind u).hasMap = true ∧ w.id u = i
  sums : ∀ u ∈ s.units, w.kind u ≠ .job → w.sum u ∈ s.sums

/-- What adding jobs does not change. -/
structure Ext (w : World U C I P) (s s' : Ctx U C I P) : Prop where
  units : ∃ l, s'.units = s.units ++ l
  states : ∀ i u, s.states.lookup i = some u → s'.states.lookup i = some u
  sums : s'.sums = s.sums
  run : s'.run = s.run
  providers : s'.providers = s.providers

theorem Ext.refl (w : World U C I P) (s : Ctx U C I P) : Ext w s s := ⟨⟨[], by simp⟩, fun _ _ h => h, rfl, rfl, rfl⟩

theorem Ext.trans {w : World U C I P} {a b c : Ctx U C I P} (h : Ext w a b) (g : Ext w b c) : Ext w a c := by
  obtain ⟨l, hl⟩ := h.units
  obtain ⟨m, hm⟩ := g.units
  exact ⟨⟨l ++ m, by rw [hm, hl, List.append_assoc]⟩, fun i u e => g.states i u (h.states i u e),
    g.sums.trans h.sums, g.run.trans h.run, g.providers.trans h.providers⟩

theorem lookup_snoc {V : Type} (l : List (I × V)) (k : I) (v : V) (i : I) :
    (l ++ [(k, v)]).lookup i = (l.lookup i).or (if i = k then some v else none) := by
  rw [List.lookup_append]
  congr 1
  by_cases h : i = k
  · simp [h]
  · simp [List.lookup_cons, h, beq_eq_false_iff_ne.2 h]

theorem ext_register (w : World U C I P) (s : Ctx U C I P) (u : U) : Ext w s (w.register s u) := by
  refine ⟨⟨[u], rfl⟩, ?_, rfl, rfl, rfl⟩
  intro i v h
  simp only [World.register, lookup_snoc, h, Option.some_or]

theorem finish_fst (w : World U C I P) (rc : Bool) (r : Ctx U C I P × Option Err) : (w.finish rc r).1 = r.1 := by
  unfold World.finish
  split <;> rfl

theorem finish_none {w : World U C I P} {rc : Bool} {r : Ctx U C I P × Option Err} (h : (w.finish rc r).2 = none) :
    r.2 = none := by
  unfold World.finish at h
  split at h
  · cases h
  · exact h

theorem has_iff {w : World U C I P} (hw : WF w) (l : List U) (u : U) : w.has l u = true ↔ u ∈ l := by
  unfold World.has
  rw [List.any_eq_true]
  constructor
  · rintro ⟨v, hv, he⟩
    rw [decide_eq_true_iff] at he
    rwa [← hw.inj v u he]
  · exact fun h => ⟨u, h, by simp⟩

theorem mem_drop {w : World U C I P} (hw : WF w) {l : List U} (hl : (l.map w.sum).Nodup) (u v : U) :
    v ∈ w.drop l u ↔ v ∈ l ∧ v ≠ u := by
  unfold World.drop
  induction l with
  | nil => simp
  | cons x l ih =>
    rw [List.map_cons, List.nodup_cons] at hl
    rw [List.eraseP_cons]
    by_cases h : w.sum x = w.sum u
    · have := hw.inj x u h
      subst this
      simp only [decide_true, cond_true]
      constructor
      · intro hv
        refine ⟨by simp [hv], ?_⟩
        rintro rfl
        exact hl.1 (List.mem_map_of_mem hv)
      · rintro ⟨h1, h2⟩
        rcases List.mem_cons.1 h1 with h1 | h1
        · exact absurd h1 h2
        · exact h1
    · simp only [h, decide_false, cond_false, List.mem_cons, ih hl.2]
      constructor
      · rintro (rfl | h1)
        · exact ⟨.inl rfl, fun e => h (e ▸ rfl)⟩
        · exact ⟨.inr h1.1, h1.2⟩
      · rintro ⟨rfl | h1, h2⟩
        · exact .inl rfl
        · exact .inr ⟨h1, h2⟩

theorem nodup_drop {w : World U C I P} {l : List U} (hl : (l.map w.sum).Nodup) (u : U) :
    ((w.drop l u).map w.sum).Nodup :=
  hl.sublist ((List.eraseP_sublist).map _)

theorem nodup_snoc {w : World U C I P} (hw : WF w) {l : List U} (hl : (l.map w.sum).Nodup) {u : U} (hu : u ∉ l) :
    ((l ++ [u]).map w.sum).Nodup := by
  rw [List.map_append, List.nodup_append]
  refine ⟨hl, by simp, ?_⟩
  intro a ha b hb
  simp only [List.map_cons, List.map_nil, List.mem_singleton] at hb
  subst hb
  rintro rfl
  obtain ⟨v, hv, he⟩ := List.mem_map.1 ha
  exact hu (hw.inj v u he ▸ hv)

theorem Inv.register {w : World U C I P} (hw : WF w) {s : Ctx U C I P} (h : Inv w s) {u : U} (hk : w.kind u = .job)
    (hn : s.states.lookup (w.id u) = none) : Inv w (w.register s u) := by
  have hu : u ∉ s.units := by
    intro hu
    rw [(h.states (w.id u) u).2 ⟨hu, hk, rfl⟩] at hn
    cases hn
  have huniq : ∀ v ∈ s.units, (w.kind v).hasMap = true → w.id v ≠ w.id u := by
    intro v hv hm he
    cases hkv : w.kind v with
    | job =>
      rw [(h.states (w.id u) v).2 ⟨hv, hkv, he⟩] at hn
      cases hn
    | withId =>
      have := hw.ids v u hkv (by rw [hk]; rfl) he
      subst this
      exact hu hv
    | template => rw [hkv] at hm; cases hm
    | bare => rw [hkv] at hm; cases hm
  refine ⟨nodup_snoc hw h.nodup hu, nodup_snoc hw h.jobsNodup (fun e => hu ((h.jobs u).1 e).1), ?_, ?_, ?_, ?_⟩
  · intro i v
    simp only [World.register, lookup_snoc, List.mem_append, List.mem_singleton]
    constructor
    · intro he
      cases hl : s.states.lookup i with
      | some x =>
        rw [hl] at he
        simp only [Option.some_or, Option.some.injEq] at he
        subst he
        obtain ⟨a, b, c⟩ := (h.states i x).1 hl
        exact ⟨.inl a, b, c⟩
      | none =>
        rw [hl] at he
        simp only [Option.none_or] at he
        split at he
        · rename_i e
          simp only [Option.some.injEq] at he
          subst he
          exact ⟨.inr rfl, hk, e.symm⟩
        · cases he
    · rintro ⟨a | rfl, b, c⟩
      · rw [(h.states i v).2 ⟨a, b, c⟩]; rfl
      · subst c
        simp [hn]
  · intro v
    simp only [World.register, List.mem_append, List.mem_singleton, h.jobs v]
    constructor
    · rintro (⟨a, b⟩ | rfl)
      · exact ⟨.inl a, b⟩
      · exact ⟨.inr rfl, hk⟩
    · rintro ⟨a | rfl, b⟩
      · exact .inl ⟨a, b⟩
      · exact .inr rfl
  · intro i v
    simp only [World.register, lookup_setKey, List.mem_append, List.mem_singleton]
    split
    · rename_i e
      subst e
      constructor
      · intro he
        simp only [Option.some.injEq] at he
        subst he
        exact ⟨.inr rfl, by rw [hk]; rfl, rfl⟩
      · rintro ⟨a | rfl, b, c⟩
        · exact absurd c (huniq v a b)
        · rfl
    · rename_i e
      rw [h.idMap i v]
      constructor
      · rintro ⟨a, b, c⟩
        exact ⟨.inl a, b, c⟩
      · rintro ⟨a | rfl, b, c⟩
        · exact ⟨a, b, c⟩
        · exact absurd c.symm e
  · intro v hv hn'
    simp only [World.register, List.mem_append, List.mem_singleton] at hv ⊢
    rcases hv with hv | rfl
    · exact h.sums v hv hn'
    · exact absurd hk hn'

mutual

theorem addTree_ext (w : World U C I P) (rc : Bool) : ∀ (t : Tree U) (s : Ctx U C I P), Ext w s (w.addTree rc s t).1
  | .node u kids, s => by
    rw [World.addTree, finish_fst]
    split
    · exact (ext_register w s u).trans (addForest_ext w rc kids _)
    · split
      · exact Ext.refl w s
      · exact addForest_ext w rc kids s

theorem addForest_ext (w : World U C I P) (rc : Bool) : ∀ (ts : List (Tree U)) (s : Ctx U C I P),
    Ext w s (w.addForest rc s ts).1
  | [], s => Ext.refl w s
  | t :: ts, s => by
    have h := addTree_ext w rc t s
    rw [World.addForest]
    split
    · rename_i s' e he
      rw [he] at h
      exact h
    · rename_i s' he
      rw [he] at h
      exact h.trans (addForest_ext w rc ts s')

end

mutual

theorem Inv.tree {w : World U C I P} (hw : WF w) (rc : Bool) : ∀ (t : Tree U) (s : Ctx U C I P),
    Inv w s → (∀ v ∈ t.nodes, w.kind v = .job) → Inv w (w.addTree rc s t).1
  | .node u kids, s, h, hk => by
    rw [World.addTree, finish_fst]
    have hkk : ∀ v ∈ nodesOf kids, w.kind v = .job := fun v hv => hk v (by simp [Tree.nodes, hv])
    split
    · rename_i hn
      exact Inv.forest hw rc kids _ (h.register hw (hk u (by simp [Tree.nodes])) hn) hkk
    · split
      · exact h
      · exact Inv.forest hw rc kids s h hkk

theorem Inv.forest {w : World U C I P} (hw : WF w) (rc : Bool) : ∀ (ts : List (Tree U)) (s : Ctx U C I P),
    Inv w s → (∀ v ∈ nodesOf ts, w.kind v = .job) → Inv w (w.addForest rc s ts).1
  | [], s, h, _ => h
  | t :: ts, s, h, hk => by
    have h' := Inv.tree hw rc t s h (fun v hv => hk v (by simp [nodesOf, hv]))
    rw [World.addForest]
    split
    · rename_i s' e he
      rw [he] at h'
      exact h'
    · rename_i s' he
      rw [he] at h'
      exact Inv.forest hw rc ts s' h' (fun v hv => hk v (by simp [nodesOf, hv]))

end

theorem Inv.other {w : World U C I P} (hw : WF w) {s : Ctx U C I P} (h : Inv w s) {u : U} (hk : w.kind u ≠ .job)
    (hu : u ∉ s.units) (hs : w.sum u ∈ s.sums) :
    Inv w { s with units := s.units ++ [u],
                   idMap := if (w.kind u).hasMap then setKey s.idMap (w.id u) u else s.idMap } := by
  refine ⟨nodup_snoc hw h.nodup hu, h.jobsNodup, ?_, ?_, ?_, ?_⟩
  · intro i v
    simp only [List.mem_append, List.mem_singleton, h.states i v]
    constructor
    · rintro ⟨a, b, c⟩
      exact ⟨.inl a, b, c⟩
    · rintro ⟨a | rfl, b, c⟩
      · exact ⟨a, b, c⟩
      · exact absurd b hk
  · intro v
    simp only [List.mem_append, List.mem_singleton, h.jobs v]
    constructor
    · rintro ⟨a, b⟩
      exact ⟨.inl a, b⟩
    · rintro ⟨a | rfl, b⟩
      · exact ⟨a, b⟩
      · exact absurd b hk
  · intro i v
    simp only [List.mem_append, List.mem_singleton]
    split
    · rename_i hm
      have hwid : w.kind u = .withId := by
        cases hku : w.kind u with
        | job => exact absurd hku hk
        | withId => rfl
        | template => rw [hku] at hm; cases hm
        | bare => rw [hku] at hm; cases hm
      rw [lookup_setKey]
      split
      · rename_i e
        subst e
        constructor
        · intro he
          simp only [Option.some.injEq] at he
          subst he
          exact ⟨.inr rfl, hm, rfl⟩
        · rintro ⟨a | rfl, b, c⟩
          · have := hw.ids u v hwid b c.symm
            subst this
            exact absurd a hu
          · rfl
      · rename_i e
        rw [h.idMap i v]
        constructor
        · rintro ⟨a, b, c⟩
          exact ⟨.inl a, b, c⟩
        · rintro ⟨a | rfl, b, c⟩
          · exact ⟨a, b, c⟩
          · exact absurd c.symm e
    · rename_i hm
      rw [h.idMap i v]
      constructor
      · rintro ⟨a, b, c⟩
        exact ⟨.inl a, b, c⟩
      · rintro ⟨a | rfl, b, c⟩
        · exact ⟨a, b, c⟩
        · exact absurd b hm
  · intro v hv hn
    simp only [List.mem_append, List.mem_singleton] at hv
    rcases hv with hv | rfl
    · exact h.sums v hv hn
    · exact hs

theorem Inv.grow {w : World U C I P} {s : Ctx U C I P} (h : Inv w s) (c : C) :
    Inv w { s with sums := s.sums ++ [c] } :=
  ⟨h.nodup, h.jobsNodup, h.states, h.jobs, h.idMap, fun u hu hn => by simp [h.sums u hu hn]⟩

theorem Inv.stateAdd {w : World U C I P} (hw : WF w) {s : Ctx U C I P} (h : Inv w s) (rc : Bool) (u : U)
    (ho : w.kind u ≠ .job → u ∉ s.units ∧ w.sum u ∈ s.sums) : Inv w (w.stateAdd rc s u).1 := by
  unfold World.stateAdd
  split
  · rename_i hk
    refine Inv.tree hw rc _ s h ?_
    intro v hv
    simp only [Tree.nodes, List.mem_cons] at hv
    rcases hv with rfl | hv
    · exact hk
    · exact hw.kids u v hv
  · rename_i hk
    exact h.other hw hk (ho hk).1 (ho hk).2

theorem Inv.add {w : World U C I P} (hw : WF w) {s : Ctx U C I P} (h : Inv w s) (rc : Bool) (u : U) :
    Inv w (w.add rc s u).1 := by
  unfold World.add
  split
  · exact h
  · rename_i hn
    refine (h.grow (w.sum u)).stateAdd hw rc u ?_
    intro hk
    exact ⟨fun hu => hn (h.sums u hu hk), by simp⟩

theorem Inv.addUnits {w : World U C I P} (hw : WF w) (us : List U) : ∀ {s : Ctx U C I P}, Inv w s →
    Inv w (w.addUnits s us).1 := by
  induction us with
  | nil => exact fun h => h
  | cons u us ih =>
    intro s h
    have h' := h.add hw false u
    rw [World.addUnits]
    split
    · rename_i s' e he
      rw [he] at h'
      exact h'
    · rename_i s' he
      rw [he] at h'
      exact ih h'

theorem Inv.congr {w : World U C I P} {s s' : Ctx U C I P} (h : Inv w s) (h1 : s'.units = s.units) (h2 : s'.jobs = s.jobs)
    (h3 : s'.states = s.states) (h4 : s'.idMap = s.idMap) (h5 : s'.sums = s.sums) : Inv w s' := by
  constructor
  · rw [h1]; exact h.nodup
  · rw [h2]; exact h.jobsNodup
  · rw [h3, h1]; exact h.states
  · rw [h2, h1]; exact h.jobs
  · rw [h4, h1]; exact h.idMap
  · rw [h5, h1]; exact h.sums

theorem Inv.addProvider {w : World U C I P} (hw : WF w) {s : Ctx U C I P} (h : Inv w s) (p : P) (a : Bool) :
    Inv w (w.addProvider s p a).1 := by
  unfold World.addProvider
  split
  · exact h
  · have h1 : Inv w { s with providers := s.providers ++ [p] } := h.congr rfl rfl rfl rfl rfl
    have h2 : Inv w (if a then w.addUnits { s with providers := s.providers ++ [p] } (w.unitsOf p)
        else ({ s with providers := s.providers ++ [p] }, none)).1 := by
      split
      · exact h1.addUnits hw _
      · exact h1
    dsimp only
    split
    · rename_i s2 e he
      rw [he] at h2
      exact h2
    · rename_i s2 he
      rw [he] at h2
      split <;> exact h2

/-- The context after `u` is taken out everywhere. -/
def World.without (w : World U C I P) (s : Ctx U C I P) (u : U) : Ctx U C I P :=
  { s with units := w.drop s.units u,
           jobs := if w.kind u = .job then w.drop s.jobs u else s.jobs,
           states := if w.kind u = .job then delKey s.states (w.id u) else s.states,
           idMap := if (w.kind u).hasMap then delKey s.idMap (w.id u) else s.idMap,
           sums := s.sums.filter (· ≠ w.sum u) }

theorem remove_eq {w : World U C I P} (hw : WF w) {s : Ctx U C I P} (h : Inv w s) {u : U} (hu : u ∈ s.units)
    (hs : w.sum u ∈ s.sums) :
    w.remove s u = (w.without s u, if w.kind u = .job ∧ w.fails (w.without s u) = true then some .recompute else none) := by
  have h1 : w.has s.units u = true := (has_iff hw _ _).2 hu
  unfold World.remove World.stateRemove World.without
  simp only [h1, hs, not_true_eq_false, Bool.not_true, Bool.false_eq_true, if_false]
  by_cases hm : (w.kind u).hasMap = true
  · have h2 : s.idMap.lookup (w.id u) = some u := (h.idMap _ _).2 ⟨hu, hm, rfl⟩
    simp only [hm, h2, Option.isNone_some, Bool.and_false, Bool.false_eq_true, if_false, if_true]
    by_cases hk : w.kind u = .job
    · have h3 : w.has s.jobs u = true := (has_iff hw _ _).2 ((h.jobs u).2 ⟨hu, hk⟩)
      have h4 : s.states.lookup (w.id u) = some u := (h.states _ _).2 ⟨hu, hk, rfl⟩
      simp only [hk, if_true, h3, h4, Bool.not_true, Bool.false_eq_true, if_false, Option.isNone_some, true_and]
      split <;> rfl
    · simp only [hk, if_false, false_and]
  · simp only [hm, Bool.false_and, Bool.false_eq_true, if_false]
    have hk : w.kind u ≠ .job := fun e => hm (by rw [e]; rfl)
    simp only [hk, if_false, false_and]

theorem Inv.without {w : World U C I P} (hw : WF w) {s : Ctx U C I P} (h : Inv w s) {u : U} (hu : u ∈ s.units) :
    Inv w (w.without s u) := by
  have hd := mem_drop hw h.nodup u
  constructor
  · exact nodup_drop h.nodup u
  · simp only [World.without]
    split
    · exact nodup_drop h.jobsNodup u
    · exact h.jobsNodup
  · intro i v
    simp only [World.without, hd v]
    split
    · rename_i hk
      rw [lookup_delKey]
      split
      · rename_i e
        subst e
        simp only [reduceCtorEq, false_iff, not_and]
        rintro ⟨a, b⟩ c d
        have e1 := (h.states (w.id u) v).2 ⟨a, c, d⟩
        have e2 := (h.states (w.id u) u).2 ⟨hu, hk, rfl⟩
        rw [e2] at e1
        simp only [Option.some.injEq] at e1
        exact b e1.symm
      · rename_i e
        rw [h.states i v]
        constructor
        · rintro ⟨a, b, c⟩
          exact ⟨⟨a, fun x => e (by rw [← c, x])⟩, b, c⟩
        · rintro ⟨⟨a, _⟩, b, c⟩
          exact ⟨a, b, c⟩
    · rename_i hk
      rw [h.states i v]
      constructor
      · rintro ⟨a, b, c⟩
        exact ⟨⟨a, fun x => hk (x ▸ b)⟩, b, c⟩
      · rintro ⟨⟨a, _⟩, b, c⟩
        exact ⟨a, b, c⟩
  · intro v
    simp only [World.without, hd v]
    split
    · rw [mem_drop hw h.jobsNodup u v, h.jobs v]
      constructor
      · rintro ⟨⟨a, b⟩, c⟩
        exact ⟨⟨a, c⟩, b⟩
      · rintro ⟨⟨a, c⟩, b⟩
        exact ⟨⟨a, b⟩, c⟩
    · rename_i hk
      rw [h.jobs v]
      constructor
      · rintro ⟨a, b⟩
        exact ⟨⟨a, fun x => hk (x ▸ b)⟩, b⟩
      · rintro ⟨⟨a, _⟩, b⟩
        exact ⟨a, b⟩
  · intro i v
    simp only [World.without, hd v]
    split
    · rename_i hm
      rw [lookup_delKey]
      split
      · rename_i e
        subst e
        simp only [reduceCtorEq, false_iff, not_and]
        rintro ⟨a, b⟩ c d
        have e1 := (h.idMap (w.id u) v).2 ⟨a, c, d⟩
        have e2 := (h.idMap (w.id u) u).2 ⟨hu, hm, rfl⟩
        rw [e2] at e1
        simp only [Option.some.injEq] at e1
        exact b e1.symm
      · rename_i e
        rw [h.idMap i v]
        constructor
        · rintro ⟨a, b, c⟩
          exact ⟨⟨a, fun x => e (by rw [← c, x])⟩, b, c⟩
        · rintro ⟨⟨a, _⟩, b, c⟩
          exact ⟨a, b, c⟩
    · rename_i hm
      rw [h.idMap i v]
      constructor
      · rintro ⟨a, b, c⟩
        exact ⟨⟨a, fun x => hm (x ▸ b)⟩, b, c⟩
      · rintro ⟨⟨a, _⟩, b, c⟩
        exact ⟨a, b, c⟩
  · intro v hv hn
    simp only [World.without, hd v] at hv
    simp only [World.without, List.mem_filter, decide_eq_true_eq, ne_eq]
    exact ⟨h.sums v hv.1 hn, fun e => hv.2 (hw.inj v u e)⟩

theorem Inv.remove {w : World U C I P} (hw : WF w) {s : Ctx U C I P} (h : Inv w s) (u : U) : Inv w (w.remove s u).1 := by
  by_cases hu : u ∈ s.units
  · by_cases hs : w.sum u ∈ s.sums
    · rw [remove_eq hw h hu hs]
      exact h.without hw hu
    · unfold World.remove
      simp only [(has_iff hw _ _).2 hu, hs, not_false_eq_true, Bool.not_true, Bool.false_eq_true, if_false, if_true]
      exact h
  · unfold World.remove
    have : w.has s.units u = false := by
      rw [Bool.eq_false_iff]
      exact fun e => hu ((has_iff hw _ _).1 e)
    simp only [this, Bool.not_false, if_true]
    exact h

/-- Only jobs are generated. -/
def JobsOnly (w : World U C I P) : Op U I P → Prop
  | .generate u => w.kind u = .job
  | _ => True

theorem Inv.step {w : World U C I P} (hw : WF w) {s : Ctx U C I P} (h : Inv w s) (op : Op U I P) (ho : JobsOnly w op) :
    Inv w (w.step s op).1 := by
  cases op with
  | add u rc => exact h.add hw rc u
  | remove u => exact h.remove hw u
  | provider p a => exact h.addProvider hw p a
  | generate u => exact h.stateAdd hw true u (fun e => absurd ho e)
  | select ids => exact h.congr rfl rfl rfl rfl rfl

theorem Inv.run {w : World U C I P} (hw : WF w) (ops : List (Op U I P)) : ∀ {s : Ctx U C I P}, Inv w s →
    (∀ op ∈ ops, JobsOnly w op) → Inv w (w.run s ops) := by
  induction ops with
  | nil => exact fun h _ => h
  | cons op ops ih =>
    intro s h ho
    exact ih (h.step hw op (ho op (by simp))) (fun o hm => ho o (by simp [hm]))

theorem lookup_fold (w : World U C I P) (l : List U) : ∀ (m : List (I × U)) (i : I),
    (∀ u v, u ∈ l → v ∈ l → w.id u = w.id v → u = v) → (∀ u ∈ l, ∀ v, m.lookup (w.id u) = some v → v = u) →
    ∀ v, (l.foldl (fun m u => setKey m (w.id u) u) m).lookup i = some v ↔
      m.lookup i = some v ∨ (v ∈ l ∧ w.id v = i) := by
  induction l with
  | nil => intro m i _ _ v; simp
  | cons x l ih =>
    intro m i h1 h2 v
    rw [List.foldl_cons, ih _ i (fun u v hu hv => h1 u v (by simp [hu]) (by simp [hv]))]
    · rw [lookup_setKey]
      split
      · rename_i e
        subst e
        constructor
        · rintro (he | ⟨a, b⟩)
          · simp only [Option.some.injEq] at he
            subst he
            exact .inr ⟨by simp, rfl⟩
          · exact .inr ⟨by simp [a], b⟩
        · rintro (he | ⟨a, b⟩)
          · rw [h2 x (by simp) v he]; exact .inl rfl
          · rw [h1 v x a (by simp) b]; exact .inl rfl
      · rename_i e
        simp only [List.mem_cons]
        constructor
        · rintro (a | ⟨a, b⟩)
          · exact .inl a
          · exact .inr ⟨.inr a, b⟩
        · rintro (a | ⟨rfl | a, b⟩)
          · exact .inl a
          · exact absurd b.symm e
          · exact .inr ⟨a, b⟩
    · intro u hu v hv
      rw [lookup_setKey] at hv
      split at hv
      · rename_i e
        simp only [Option.some.injEq] at hv
        subst hv
        exact h1 x u (by simp) (by simp [hu]) e.symm
      · exact h2 u (by simp [hu]) v hv

theorem lookup_map_id {w : World U C I P} (l : List U) (h : ∀ u v, u ∈ l → v ∈ l → w.id u = w.id v → u = v) (i : I) (v : U) :
    (l.map fun u => (w.id u, u)).lookup i = some v ↔ v ∈ l ∧ w.id v = i := by
  induction l with
  | nil => simp
  | cons x l ih =>
    have ih' := ih (fun u v hu hv => h u v (by simp [hu]) (by simp [hv]))
    rw [List.map_cons, Session.lookup_cons_if]
    split
    · rename_i e
      dsimp only at e
      subst e
      constructor
      · intro he
        simp only [Option.some.injEq] at he
        subst he
        exact ⟨by simp, rfl⟩
      · rintro ⟨a, b⟩
        rw [h v x a (by simp) b]
    · rename_i e
      rw [ih']
      simp only [List.mem_cons]
      constructor
      · rintro ⟨a, b⟩
        exact ⟨.inr a, b⟩
      · rintro ⟨rfl | a, b⟩
        · exact absurd b.symm e
        · exact ⟨a, b⟩

/-- The units of the state that a context is made for: no unit twice, no two jobs with the same id. -/
structure Initial (w : World U C I P) (l : List U) : Prop where
  nodup : (l.map w.sum).Nodup
  jobs : ∀ u v, u ∈ l → v ∈ l → w.kind u = .job → w.kind v = .job → w.id u = w.id v → u = v

theorem Inv.init {w : World U C I P} (hw : WF w) {l : List U} (hl : Initial w l) : Inv w (w.init l) := by
  have hu : ∀ u v, u ∈ l → v ∈ l → (w.kind u).hasMap = true → (w.kind v).hasMap = true → w.id u = w.id v → u = v := by
    intro u v h1 h2 h3 h4 h5
    cases hk : w.kind u with
    | job =>
      cases hk' : w.kind v with
      | job => exact hl.jobs u v h1 h2 hk hk' h5
      | withId => exact (hw.ids v u hk' h3 h5.symm).symm
      | template => rw [hk'] at h4; cases h4
      | bare => rw [hk'] at h4; cases h4
    | withId => exact hw.ids u v hk h4 h5
    | template => rw [hk] at h3; cases h3
    | bare => rw [hk] at h3; cases h3
  constructor
  · exact hl.nodup
  · exact hl.nodup.sublist (List.filter_sublist.map _)
  · intro i u
    simp only [World.init]
    rw [lookup_map_id]
    · simp only [List.mem_filter, decide_eq_true_eq, and_assoc]
    · intro a b ha hb
      simp only [List.mem_filter, decide_eq_true_eq] at ha hb
      exact hl.jobs a b ha.1 hb.1 ha.2 hb.2
  · intro u
    simp [World.init]
  · intro i u
    simp only [World.init]
    rw [lookup_fold]
    · simp only [List.lookup_nil, reduceCtorEq, false_or, List.mem_filter, and_assoc]
    · intro a b ha hb
      simp only [List.mem_filter] at ha hb
      exact hu a b ha.1 hb.1 ha.2 hb.2
    · simp
  · intro u hm _
    exact List.mem_map_of_mem hm

end Verif.Device
