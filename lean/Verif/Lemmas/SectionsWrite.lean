import Verif.Lemmas.Sections
import Verif.Props.IniText

/-!
# Lemmas about writing the sections of a configuration
-/

namespace Verif.Sections

open Verif.Restart (Str settable)
open Verif.IniText (Key Data find Made)
open Verif.Config (DEFAULT findOpt storeOpt)
open Verif.Assoc

theorem mem_storeOpt {k : Key} {v : Str} : ∀ {l : List (Key × Str)} {e : Key × Str}, e ∈ storeOpt k v l →
    e ∈ l ∨ e = (k, v) := by
  intro l
  induction l with
  | nil => intro e he; simp only [storeOpt, List.mem_singleton] at he; exact .inr he
  | cons y l ih =>
    obtain ⟨j, w⟩ := y
    intro e he
    simp only [storeOpt] at he
    split at he
    · rename_i hj
      rcases List.mem_cons.1 he with he | he
      · exact .inr (hj ▸ he)
      · exact .inl (by simp [he])
    · rcases List.mem_cons.1 he with he | he
      · exact .inl (by simp [he])
      · exact (ih he).imp_left fun h => by simp [h]

theorem made_store {ok : Key → Str → Prop} {d : Config.Data} (m : Made ok d) {s o v : Str}
    (hs : s = DEFAULT ∨ s ∈ d.sections) (ho : ok (s, o) v) :
    Made ok { d with opts := storeOpt (s, o) v d.opts } := by
  refine ⟨m.sections, m.default, m.headed, ?_, ?_, ?_⟩
  · dsimp only
    rw [IniText.find_storeOpt]
    by_cases hm : (s, o) ∈ d.opts.map (·.1)
    · rw [IniText.put_keys _ _ _ hm]; exact m.keys
    · rw [IniText.put_new _ _ _ hm, List.map_append, List.nodup_append]
      refine ⟨m.keys, by simp, ?_⟩
      intro a ha b hb hab
      simp only [List.map_cons, List.map_nil, List.mem_singleton] at hb
      exact hm (hb ▸ hab ▸ ha)
  · intro e he
    rcases mem_storeOpt he with he | rfl
    · exact m.known e he
    · exact hs
  · intro e he
    rcases mem_storeOpt he with he | rfl
    · exact m.opts e he
    · exact ho

/-! ## One section -/

theorem setAll_sections {s : Str} : ∀ {l : Dict} {d d' : Config.Data}, setAll s l d = .ok d' →
    d'.sections = d.sections := by
  intro l
  induction l with
  | nil => intro d d' h; simp only [setAll, Except.ok.injEq] at h; rw [h]
  | cons e l ih =>
    obtain ⟨o, v⟩ := e
    intro d d' h
    rw [setAll] at h
    split at h
    · exact (ih h).trans rfl
    · simp at h

theorem setAll_ok {s : Str} : ∀ {l : Dict} {d : Config.Data}, (∃ d', setAll s l d = .ok d') ↔
    ∀ e ∈ l, settable e.2 = true := by
  intro l
  induction l with
  | nil => intro d; simp [setAll]
  | cons e l ih =>
    obtain ⟨o, v⟩ := e
    intro d
    rw [setAll]
    by_cases hv : settable v = true
    · rw [if_pos hv, ih]; simp [hv]
    · rw [if_neg hv]; simp [hv]

theorem setAll_made {ok : Key → Str → Prop} {s : Str} (hne : s ≠ []) : ∀ {l : Dict} {d d' : Config.Data},
    setAll s l d = .ok d' → Made ok d → s ∈ d.sections → (∀ e ∈ l, ok (s, e.1) e.2) → Made ok d' := by
  intro l
  induction l with
  | nil => intro d d' h m _ _; simp only [setAll, Except.ok.injEq] at h; exact h ▸ m
  | cons e l ih =>
    obtain ⟨o, v⟩ := e
    intro d d' h m hs ho
    rw [setAll] at h
    split at h
    · have hh : home s = s := by simp [home, hne]
      rw [hh] at h
      exact ih h (made_store m (.inr hs) (ho (o, v) (by simp))) hs fun e he => ho e (by simp [he])
    · simp at h

theorem setAll_other {s : Str} (hne : s ≠ []) : ∀ {l : Dict} {d d' : Config.Data}, setAll s l d = .ok d' →
    ∀ k : Key, k.1 ≠ s → findOpt k d'.opts = findOpt k d.opts := by
  intro l
  induction l with
  | nil => intro d d' h k _; simp only [setAll, Except.ok.injEq] at h; rw [h]
  | cons e l ih =>
    obtain ⟨o, v⟩ := e
    intro d d' h k hk
    rw [setAll] at h
    split at h
    · have hh : home s = s := by simp [home, hne]
      rw [hh] at h
      rw [ih h k hk, Config.findOpt_storeOpt, if_neg]
      intro e
      exact hk (by rw [e])
    · simp at h

theorem setAll_own {s : Str} (hne : s ≠ []) : ∀ {l : Dict} {d d' : Config.Data}, setAll s l d = .ok d' →
    (l.map (·.1)).Nodup → ∀ o, findOpt (s, o) d'.opts = (l.lookup o).or (findOpt (s, o) d.opts) := by
  intro l
  induction l with
  | nil => intro d d' h _ o; simp only [setAll, Except.ok.injEq] at h; rw [h]; rfl
  | cons e l ih =>
    obtain ⟨a, v⟩ := e
    intro d d' h hn o
    rw [setAll] at h
    split at h
    · have hh : home s = s := by simp [home, hne]
      rw [hh] at h
      simp only [List.map_cons, List.nodup_cons] at hn
      rw [ih h hn.2 o, Config.findOpt_storeOpt, lk_cons]
      by_cases ho : o = a
      · subst ho
        have : l.lookup o = none := by
          cases hl : l.lookup o with
          | none => rfl
          | some x =>
            exfalso
            exact hn.1 (by
              clear ih h
              induction l with
              | nil => simp at hl
              | cons y l ih2 =>
                rw [lk_cons] at hl
                by_cases hy : o = y.1
                · simp [hy]
                · rw [if_neg hy] at hl
                  simp only [List.map_cons, List.mem_cons]
                  simp only [List.map_cons, List.nodup_cons, List.mem_cons, not_or] at hn
                  exact .inr (ih2 ⟨hn.1.2, hn.2.2⟩ hl))
        rw [this]
        simp
      · simp [ho]
    · simp at h

theorem addSection_spec {s : Str} {d : Config.Data} (hd : DEFAULT ∉ d.sections) :
    (s = DEFAULT ∧ addSection s d = .error .value) ∨
    (s ≠ DEFAULT ∧ ∃ d', addSection s d = .ok d' ∧ d'.opts = d.opts ∧ s ∈ d'.sections ∧ DEFAULT ∉ d'.sections ∧
      (∀ x, x ∈ d'.sections ↔ x ∈ d.sections ∨ x = s) ∧
      ∀ ok, Made ok d → (s ≠ [] ∧ ']' ∉ s ∧ '\n' ∉ s) → Made ok d') := by
  unfold addSection
  by_cases h1 : s ∈ d.sections
  · right
    rw [if_pos h1]
    refine ⟨fun e => hd (e ▸ h1), d, rfl, rfl, h1, hd, fun x => ?_, fun ok m _ => m⟩
    exact ⟨.inl, fun h => h.elim id fun e => e ▸ h1⟩
  · rw [if_neg h1]
    by_cases h2 : s = DEFAULT
    · left; rw [if_pos h2]; exact ⟨h2, rfl⟩
    · right
      rw [if_neg h2]
      refine ⟨h2, _, rfl, rfl, by simp, ?_, fun x => by simp, fun ok m hh => ⟨?_, ?_, ?_, m.keys, ?_, m.opts⟩⟩
      · simp only [List.mem_append, List.mem_singleton, not_or]
        exact ⟨hd, fun e => h2 e.symm⟩
      · rw [List.nodup_append]
        refine ⟨m.sections, by simp, ?_⟩
        intro a ha b hb hab
        simp only [List.mem_singleton] at hb
        exact h1 (hb ▸ hab ▸ ha)
      · simp only [List.mem_append, List.mem_singleton, not_or]
        exact ⟨hd, fun e => h2 e.symm⟩
      · intro x hx
        rcases List.mem_append.1 hx with hx | hx
        · exact m.headed x hx
        · simp only [List.mem_singleton] at hx; exact hx ▸ hh
      · intro e he
        exact (m.known e he).imp_right fun h => by simp [h]

/-! ## All sections -/

/-- Sections one after the other. -/
def putAll : List (Str × Dict) → Config.Data → Except Fault Config.Data
  | [], d => .ok d
  | e :: l, d => (putSection e.1 e.2 d).bind (putAll l)

theorem putAll_append (a b : List (Str × Dict)) (d : Config.Data) :
    putAll (a ++ b) d = (putAll a d).bind (putAll b) := by
  induction a generalizing d with
  | nil => rfl
  | cons e a ih =>
    rw [List.cons_append, putAll, putAll]
    cases putSection e.1 e.2 d with
    | error x => rfl
    | ok d' => exact ih d'

theorem putParam_eq (n : Str) : ∀ (m : List (Str × Dict)) (d : Config.Data),
    putParam n m d = putAll (m.map fun e => (n ++ ':' :: e.1, e.2)) d := by
  intro m
  induction m with
  | nil => intro d; rfl
  | cons e m ih =>
    obtain ⟨p, l⟩ := e
    intro d
    rw [putParam, List.map_cons, putAll]
    dsimp only
    cases putSection (n ++ ':' :: p) l d with
    | error x => rfl
    | ok d' => exact ih d'

/-- The plain sections of an object. -/
def plains (st : St) (ns : List Str) : List (Str × Dict) := ns.map fun n => (n, (st.sec n).getD [])

/-- The parametric sections of an object. -/
def parametric (st : St) (ns : List Str) : List (Str × Dict) :=
  ns.flatMap fun n => ((st.param n).getD []).map fun e => (n ++ ':' :: e.1, e.2)

theorem putSections_eq (st : St) : ∀ (ns : List Str) (d : Config.Data), (∀ n ∈ ns, st.sec n ≠ none) →
    putSections st ns d = putAll (plains st ns) d := by
  intro ns
  induction ns with
  | nil => intro d _; rfl
  | cons n ns ih =>
    intro d h
    have ih' := fun d => ih d fun x hx => h x (by simp [hx])
    rw [putSections]
    cases hs : st.sec n with
    | none => exact absurd hs (h n (by simp))
    | some l =>
      dsimp only
      unfold plains
      rw [List.map_cons, putAll, hs]
      dsimp only [Option.getD_some]
      cases putSection n l d with
      | error x => rfl
      | ok d' => exact ih' d'

theorem putParams_eq (st : St) : ∀ (ns : List Str) (d : Config.Data), (∀ n ∈ ns, st.param n ≠ none) →
    putParams st ns d = putAll (parametric st ns) d := by
  intro ns
  induction ns with
  | nil => intro d _; rfl
  | cons n ns ih =>
    intro d h
    have ih' := fun d => ih d fun x hx => h x (by simp [hx])
    rw [putParams]
    cases hs : st.param n with
    | none => exact absurd hs (h n (by simp))
    | some l =>
      dsimp only
      unfold parametric
      rw [List.flatMap_cons, putAll_append, putParam_eq, hs]
      dsimp only [Option.getD_some]
      cases putAll (l.map fun e => (n ++ ':' :: e.1, e.2)) d with
      | error x => rfl
      | ok d' => exact ih' d'

theorem putSections_set (st : St) : ∀ (ns : List Str) (d d' : Config.Data), putSections st ns d = .ok d' →
    ∀ n ∈ ns, st.sec n ≠ none := by
  intro ns
  induction ns with
  | nil => intro d d' _ n hn; simp at hn
  | cons a ns ih =>
    intro d d' h n hn
    rw [putSections] at h
    cases hs : st.sec a with
    | none =>
      rw [hs] at h
      dsimp only at h
      cases ha : addSection a d <;> rw [ha] at h <;> simp [Except.bind] at h
    | some l =>
      rw [hs] at h
      dsimp only at h
      cases hp : putSection a l d with
      | error x => rw [hp] at h; simp [Except.bind] at h
      | ok d1 =>
        rw [hp] at h
        rcases List.mem_cons.1 hn with rfl | hn
        · simp [hs]
        · exact ih d1 d' h n hn

theorem putParams_set (st : St) : ∀ (ns : List Str) (d d' : Config.Data), putParams st ns d = .ok d' →
    ∀ n ∈ ns, st.param n ≠ none := by
  intro ns
  induction ns with
  | nil => intro d d' _ n hn; simp at hn
  | cons a ns ih =>
    intro d d' h n hn
    rw [putParams] at h
    cases hs : st.param a with
    | none => rw [hs] at h; simp at h
    | some l =>
      rw [hs] at h
      dsimp only at h
      cases hp : putParam a l d with
      | error x => rw [hp] at h; simp [Except.bind] at h
      | ok d1 =>
        rw [hp] at h
        rcases List.mem_cons.1 hn with rfl | hn
        · simp [hs]
        · exact ih d1 d' h n hn

theorem putAll_ok : ∀ (l : List (Str × Dict)) (d : Config.Data), DEFAULT ∉ d.sections →
    ((∃ d', putAll l d = .ok d') ↔ ∀ e ∈ l, e.1 ≠ DEFAULT ∧ ∀ f ∈ e.2, settable f.2 = true) := by
  intro l
  induction l with
  | nil => intro d _; simp [putAll]
  | cons e l ih =>
    intro d hd
    rw [putAll]
    unfold putSection
    rcases addSection_spec (s := e.1) hd with ⟨h1, h2⟩ | ⟨h1, d1, h2, _, _, h3, _⟩
    · rw [h2]; simp [Except.bind, h1]
    · rw [h2]
      simp only [Except.bind]
      cases hs : setAll e.1 e.2 d1 with
      | error x =>
        have : ¬ ∀ f ∈ e.2, settable f.2 = true := fun h => by
          obtain ⟨d', h'⟩ := (setAll_ok (s := e.1) (d := d1)).2 h
          rw [hs] at h'; cases h'
        refine ⟨fun ⟨_, h⟩ => (by cases h), fun h => absurd (h e (by simp)).2 this⟩
      | ok d2 =>
        have hset := (setAll_ok (s := e.1) (d := d1)).1 ⟨d2, hs⟩
        rw [show (∃ d', putAll l d2 = .ok d') ↔ _ from ih d2 (by rw [setAll_sections hs]; exact h3)]
        constructor
        · intro h x hx
          rcases List.mem_cons.1 hx with rfl | hx
          · exact ⟨h1, hset⟩
          · exact h x hx
        · intro h x hx; exact h x (by simp [hx])

theorem findOpt_none {ok : Key → Str → Prop} {d : Config.Data} (m : Made ok d) {s : Str} (h1 : s ≠ DEFAULT)
    (h2 : s ∉ d.sections) (o : Str) : findOpt (s, o) d.opts = none := by
  rw [IniText.findOpt_eq]
  rw [IniText.find_none]
  intro hm
  obtain ⟨e, he, hk⟩ := List.mem_map.1 hm
  have := m.known e he
  rw [hk] at this
  exact this.elim h1 h2

theorem putAll_spec (ok : Key → Str → Prop) : ∀ (l : List (Str × Dict)) (d d' : Config.Data), putAll l d = .ok d' →
    Made ok d → (∀ e ∈ l, (e.1 ≠ [] ∧ ']' ∉ e.1 ∧ '\n' ∉ e.1) ∧ ∀ f ∈ e.2, ok (e.1, f.1) f.2) →
    Made ok d' ∧ (∀ s, s ∈ d'.sections ↔ s ∈ d.sections ∨ s ∈ l.map (·.1)) ∧
    (∀ k : Key, k.1 ∉ l.map (·.1) → findOpt k d'.opts = findOpt k d.opts) ∧
    ((l.map (·.1)).Nodup → (∀ e ∈ l, (e.2.map (·.1)).Nodup) → (∀ e ∈ l, e.1 ∉ d.sections) →
      ∀ e ∈ l, ∀ o, findOpt (e.1, o) d'.opts = e.2.lookup o) := by
  intro l
  induction l with
  | nil =>
    intro d d' h m _
    simp only [putAll, Except.ok.injEq] at h
    subst h
    exact ⟨m, by simp, fun _ _ => rfl, by simp⟩
  | cons e l ih =>
    intro d d' h m hl
    rw [putAll] at h
    unfold putSection at h
    obtain ⟨hh, hok⟩ := hl e (by simp)
    rcases addSection_spec (s := e.1) m.default with ⟨h1, h2⟩ | ⟨h1, d1, h2, h3, h4, _, h5, h6⟩
    · rw [h2] at h; simp [Except.bind] at h
    · rw [h2] at h
      simp only [Except.bind] at h
      cases hs : setAll e.1 e.2 d1 with
      | error x => rw [hs] at h; simp at h
      | ok d2 =>
        rw [hs] at h
        dsimp only at h
        have m1 := h6 ok m hh
        have m2 : Made ok d2 := setAll_made hh.1 hs m1 h4 hok
        have e2 : d2.sections = d1.sections := setAll_sections hs
        obtain ⟨g1, g2, g3, g4⟩ := ih d2 d' h m2 fun x hx => hl x (by simp [hx])
        refine ⟨g1, fun s => ?_, fun k hk => ?_, fun hn hk hf x hx o => ?_⟩
        · rw [g2, e2, h5]
          simp only [List.map_cons, List.mem_cons, or_assoc]
        · simp only [List.map_cons, List.mem_cons, not_or] at hk
          rw [g3 k hk.2, setAll_other hh.1 hs k hk.1, h3]
        · simp only [List.map_cons, List.nodup_cons] at hn
          rcases List.mem_cons.1 hx with rfl | hx
          · rw [g3 _ hn.1, setAll_own hh.1 hs (hk x (by simp)) o, h3,
              findOpt_none m h1 (hf x (by simp)) o, Option.or_none]
          · refine g4 hn.2 (fun y hy => hk y (by simp [hy])) (fun y hy => ?_) x hx o
            rw [e2, h5]
            rintro (hc | hc)
            · exact hf y (by simp [hy]) hc
            · exact hn.1 (hc ▸ List.mem_map.2 ⟨y, hy, rfl⟩)

end Verif.Sections
