import Verif.Lemmas.SectionsWrite
import Verif.Props.Sections
import Verif.Props.ConfigWrite

/-!
# C107: sections of a configuration, written and read back
-/

namespace Verif.Sections

open Verif.Restart (Str settable)
open Verif.IniText (Key Data find Made Named Clean)
open Verif.Config (DEFAULT findOpt storeOpt)
open Verif.Assoc

/-! ## When writing works -/

theorem toParser_default (pr : Config.Printer) (st : Config.St) : ∀ (xs : List Config.Var) (d d' : Config.Data),
    Config.toParser pr st xs d = some d' → DEFAULT ∉ d.sections → DEFAULT ∉ d'.sections := by
  intro xs
  induction xs with
  | nil => intro d d' h hd; simp only [Config.toParser, Option.some.injEq] at h; exact h ▸ hd
  | cons x xs ih =>
    intro d d' h hd
    simp only [Config.toParser] at h
    generalize hd1 : (if x.sec ∈ d.sections ∨ x.sec = DEFAULT then d
      else { d with sections := d.sections ++ [x.sec] }) = d1 at h
    have h1 : DEFAULT ∉ d1.sections := by
      subst hd1
      split
      · exact hd
      · rename_i hn
        simp only [not_or] at hn
        simp only [List.mem_append, List.mem_singleton, not_or]
        exact ⟨hd, fun e => hn.2 e.symm⟩
    split at h
    · exact ih d1 d' h h1
    · split at h
      · exact ih _ d' h h1
      · simp at h

/-- **C107**: the configuration can be written exactly if its variables can be written, all of its sections, plain and
parametric, are set, none of them is `DEFAULT`, and no value has a percent sign that the parser refuses. -/
theorem C107_write_iff (pr : Config.Printer) (c : Decl) (st : St) :
    (∃ text, write pr c st = .ok text) ↔
      (∃ d, Config.toParser pr st.base c.vars Config.noData = some d) ∧
      (∀ n ∈ c.secs, n ≠ DEFAULT ∧ ∃ l, st.sec n = some l ∧ ∀ e ∈ l, settable e.2 = true) ∧
      (∀ n ∈ c.params, ∃ m, st.param n = some m ∧ ∀ e ∈ m, ∀ f ∈ e.2, settable f.2 = true) := by
  have hw : (∃ text, write pr c st = .ok text) ↔ ∃ d, parserObj pr c st = .ok d := by
    unfold write
    cases parserObj pr c st <;> simp [Except.map]
  rw [hw]
  unfold parserObj
  rw [show ({ sections := [], opts := [] } : Config.Data) = Config.noData from rfl]
  cases ht : Config.toParser pr st.base c.vars Config.noData with
  | none => simp
  | some d =>
    have hdef := toParser_default pr st.base c.vars _ d ht (by simp [Config.noData])
    simp only [Option.some.injEq, exists_eq', true_and]
    have hcolon : ∀ n p : Str, n ++ ':' :: p ≠ DEFAULT := by
      intro n p e
      have : ':' ∈ DEFAULT := by rw [← e]; simp
      exact absurd this (by decide)
    constructor
    · rintro ⟨d', h⟩
      cases h1 : putSections st c.secs d with
      | error x => rw [h1] at h; simp [Except.bind] at h
      | ok d1 =>
        rw [h1] at h
        simp only [Except.bind] at h
        have s1 := putSections_set st c.secs d d1 h1
        have s2 := putParams_set st c.params d1 d' h
        rw [putSections_eq st c.secs d s1] at h1
        rw [putParams_eq st c.params d1 s2] at h
        have hall : putAll (plains st c.secs ++ parametric st c.params) d = .ok d' := by
          rw [putAll_append, h1]; exact h
        have := (putAll_ok _ d hdef).1 ⟨d', hall⟩
        constructor
        · intro n hn
          obtain ⟨g1, g2⟩ := this (n, (st.sec n).getD []) (List.mem_append.2 (.inl (List.mem_map.2 ⟨n, hn, rfl⟩)))
          refine ⟨g1, ?_⟩
          cases hs : st.sec n with
          | none => exact absurd hs (s1 n hn)
          | some l => rw [hs] at g2; exact ⟨l, rfl, g2⟩
        · intro n hn
          cases hs : st.param n with
          | none => exact absurd hs (s2 n hn)
          | some m =>
            refine ⟨m, rfl, fun e he f hf => ?_⟩
            refine (this (n ++ ':' :: e.1, e.2) (List.mem_append.2 (.inr ?_))).2 f hf
            refine List.mem_flatMap.2 ⟨n, hn, ?_⟩
            rw [hs]
            exact List.mem_map.2 ⟨e, he, rfl⟩
    · rintro ⟨g1, g2⟩
      have s1 : ∀ n ∈ c.secs, st.sec n ≠ none := fun n hn => by
        obtain ⟨_, l, e, _⟩ := g1 n hn; simp [e]
      have s2 : ∀ n ∈ c.params, st.param n ≠ none := fun n hn => by
        obtain ⟨m, e, _⟩ := g2 n hn; simp [e]
      obtain ⟨d', hd'⟩ := (putAll_ok (plains st c.secs ++ parametric st c.params) d hdef).2 (by
        intro e he
        rcases List.mem_append.1 he with he | he
        · obtain ⟨n, hn, rfl⟩ := List.mem_map.1 he
          obtain ⟨a, l, e, b⟩ := g1 n hn
          exact ⟨a, by rw [e]; exact b⟩
        · obtain ⟨n, hn, he⟩ := List.mem_flatMap.1 he
          obtain ⟨m, e, b⟩ := g2 n hn
          rw [e] at he
          obtain ⟨x, hx, rfl⟩ := List.mem_map.1 he
          exact ⟨hcolon _ _, b x hx⟩)
      rw [putAll_append] at hd'
      refine ⟨d', ?_⟩
      rw [putSections_eq st c.secs d s1]
      cases h1 : putAll (plains st c.secs) d with
      | error x => rw [h1] at hd'; simp [Except.bind] at hd'
      | ok d1 =>
        rw [h1] at hd'
        simp only [Except.bind] at hd' ⊢
        rw [putParams_eq st c.params d1 s2]
        exact hd'

/-! ## What comes back -/

/-- Dictionaries that are equal as dictionaries. -/
def Same (l l' : Dict) : Prop := ∀ o, l.lookup o = l'.lookup o

/-- Names that can be the names of sections. -/
def Headed (s : Str) : Prop := s ≠ DEFAULT ∧ s ≠ [] ∧ ']' ∉ s ∧ '\n' ∉ s

/-- Sections that can be written so that they come back. -/
structure Tidy (l : Dict) : Prop where
  keys : (l.map (·.1)).Nodup
  named : ∀ e ∈ l, Named e.1
  clean : ∀ e ∈ l, Clean e.2
  percent : ∀ e ∈ l, '%' ∉ e.2

theorem mem_of_lookup {V : Type} {k : Str} {v : V} : ∀ {l : List (Str × V)}, l.lookup k = some v → (k, v) ∈ l := by
  intro l
  induction l with
  | nil => intro h; simp at h
  | cons e l ih =>
    intro h
    rw [lk_cons] at h
    by_cases hk : k = e.1
    · rw [if_pos hk, Option.some.injEq] at h
      exact List.mem_cons.2 (.inl (by rw [hk, ← h]))
    · rw [if_neg hk] at h
      exact List.mem_cons_of_mem _ (ih h)

theorem lookup_of_mem {V : Type} {k : Str} {v : V} : ∀ {l : List (Str × V)}, (l.map (·.1)).Nodup → (k, v) ∈ l →
    l.lookup k = some v := by
  intro l
  induction l with
  | nil => intro _ h; simp at h
  | cons e l ih =>
    intro hn h
    simp only [List.map_cons, List.nodup_cons] at hn
    rw [lk_cons]
    rcases List.mem_cons.1 h with h | h
    · rw [← h, if_pos rfl]
    · by_cases hk : k = e.1
      · exact absurd (List.mem_map.2 ⟨(k, v), h, hk⟩) hn.1
      · rw [if_neg hk, ih hn.2 h]

theorem readVars_congr (w : Config.World) {p q : Config.Parser} : ∀ (xs : List Config.Var) (st : Config.St),
    (∀ x ∈ xs, p x.sec x.name = q x.sec x.name) → Config.readVars w p xs st = Config.readVars w q xs st := by
  intro xs
  induction xs with
  | nil => intro st _; rfl
  | cons x xs ih =>
    intro st h
    have e : Config.readVar w p x = Config.readVar w q x := by
      unfold Config.readVar
      rw [h x (by simp)]
    have ih' := fun st => ih st fun y hy => h y (by simp [hy])
    rw [Config.readVars, Config.readVars, e]
    simp only [ih']

theorem colon_inj {n m p q : Str} (hn : ':' ∉ n) (hm : ':' ∉ m) (h : n ++ ':' :: p = m ++ ':' :: q) :
    n = m ∧ p = q := by
  induction n generalizing m with
  | nil =>
    cases m with
    | nil => simpa using h
    | cons a m =>
      simp only [List.nil_append, List.cons_append, List.cons.injEq] at h
      exact absurd (List.mem_cons.2 (.inl h.1)) hm
  | cons a n ih =>
    cases m with
    | nil =>
      simp only [List.nil_append, List.cons_append, List.cons.injEq] at h
      exact absurd (List.mem_cons.2 (.inl h.1.symm)) hn
    | cons b m =>
      simp only [List.cons_append, List.cons.injEq] at h
      simp only [List.mem_cons, not_or] at hn hm
      obtain ⟨e1, e2⟩ := ih hn.2 hm.2 h.2
      exact ⟨by rw [h.1, e1], e2⟩

theorem parametric_nodup (st : St) : ∀ (ns : List Str), ns.Nodup → (∀ n ∈ ns, ':' ∉ n) →
    (∀ n ∈ ns, ∀ m, st.param n = some m → (m.map (·.1)).Nodup) → ((parametric st ns).map (·.1)).Nodup := by
  intro ns
  induction ns with
  | nil => intro _ _ _; simp [parametric]
  | cons n ns ih =>
    intro hn hc hm
    simp only [List.nodup_cons] at hn
    have ih' := ih hn.2 (fun x hx => hc x (by simp [hx])) fun x hx => hm x (by simp [hx])
    unfold parametric at ih' ⊢
    rw [List.flatMap_cons, List.map_append, List.nodup_append]
    refine ⟨?_, ih', ?_⟩
    · rw [List.map_map]
      cases hs : st.param n with
      | none => simp
      | some m =>
        have h1 := hm n (by simp) m hs
        have : ((fun x : Str × Dict => x.1) ∘ fun e : Str × Dict => (n ++ ':' :: e.1, e.2)) =
            (fun p : Str => n ++ ':' :: p) ∘ fun x : Str × Dict => x.1 := rfl
        rw [this, ← List.map_map]
        simp only [Option.getD_some]
        exact h1.map _ (fun a b hab e => hab (by simpa using e))
    · intro a ha b hb hab
      simp only [List.map_map, List.mem_map, Function.comp] at ha
      obtain ⟨x, _, rfl⟩ := ha
      obtain ⟨y, hy, rfl⟩ := List.mem_map.1 hb
      obtain ⟨k, hk, hy⟩ := List.mem_flatMap.1 hy
      obtain ⟨z, _, rfl⟩ := List.mem_map.1 hy
      obtain ⟨e, _⟩ := colon_inj (hc n (by simp)) (hc k (by simp [hk])) hab
      exact hn.1 (e ▸ hk)

/-- **C107**, partial: a configuration whose sections are set and tidy, without variables set in `DEFAULT`, can be
written, and a new object that reads the text has the same variables, the same sections and the same parametric
sections. Full statement: without these conditions (`C107_unset_violated`, `C107_percent_violated`,
`C107_default_violated`, `C107_colon_violated`; about variables C58, about texts C106). -/
theorem C107_round_partial (w : Config.World) (pr : Config.Printer) (c : Decl) (hd : Config.Distinct c.vars)
    (hn : c.vars.Nodup) (whole : Config.St → Config.Verdict) (whole' : St → Config.Verdict)
    (hw : ∀ s, whole' s ≠ .raise) (os : List Config.Op) (ho : ∀ o ∈ os, o.on c.vars) (st : St)
    (hst : st.base = Config.run w c.vars whole os Config.init)
    -- variables
    (hv : ∀ x ∈ c.vars, Config.Survives w pr x.kind (x.get st.base) ∨ (x.get st.base = .unset ∧ x.default = .unset ∧
      ∀ y ∈ c.vars, y.sec = DEFAULT → y.name = x.name → y.get st.base = .unset))
    (hr : ∀ x ∈ c.vars, Config.validate x.validators (x.get st.base) ≠ .raise)
    (hs : ∀ x ∈ c.vars, x.sec = DEFAULT ∨ Headed x.sec)
    (hc : ∀ x ∈ c.vars, x.get st.base ≠ .unset → Named x.name ∧ Clean (Config.showVal pr (x.get st.base)))
    (hdef : ∀ x ∈ c.vars, x.sec = DEFAULT → x.get st.base = .unset)
    -- names of sections
    (hcs : c.secs.Nodup) (hcp : c.params.Nodup)
    (hnames : ∀ n ∈ c.secs, Headed n ∧ ':' ∉ n) (hpnames : ∀ n ∈ c.params, ':' ∉ n ∧ ']' ∉ n ∧ '\n' ∉ n)
    (hvs : ∀ x ∈ c.vars, x.sec ∉ c.secs ∧ ':' ∉ x.sec)
    -- sections
    (hsec : ∀ n ∈ c.secs, ∃ l, st.sec n = some l ∧ Tidy l)
    (hpar : ∀ n ∈ c.params, ∃ m, st.param n = some m ∧ (m.map (·.1)).Nodup ∧
      ∀ e ∈ m, ']' ∉ e.1 ∧ '\n' ∉ e.1 ∧ Tidy e.2) :
    ∃ text, write pr c st = .ok text ∧ (readString w c whole' text init).2 = false ∧
      (∀ x ∈ c.vars, x.get (readString w c whole' text init).1.base = x.get st.base) ∧
      (∀ n ∈ c.secs, ∃ l l', st.sec n = some l ∧ (readString w c whole' text init).1.sec n = some l' ∧ Same l' l) ∧
      (∀ n ∈ c.params, ∃ m m', st.param n = some m ∧ (readString w c whole' text init).1.param n = some m' ∧
        ∀ p, (m.lookup p = none ∧ m'.lookup p = none) ∨
          ∃ l l', m.lookup p = some l ∧ m'.lookup p = some l' ∧ Same l' l) := by
  -- the variables
  obtain ⟨d0, t1, t2, t3⟩ := Config.C58_partial w pr c.vars hd hn whole os ho st.base hst hv hr
  let ok : Key → Str → Prop := fun k v => Named k.2 ∧ Clean v ∧ '%' ∉ v
  have m0 : Made ok d0 := by
    refine IniText.toParser_made ok pr st.base c.vars Config.noData d0 ⟨by simp [Config.noData], by simp [Config.noData],
      by simp [Config.noData], by simp [Config.noData], by simp [Config.noData], by simp [Config.noData]⟩
      (fun x hx => (hs x hx).imp_right fun h => h.2) (fun x hx hu => ?_) t1
    obtain ⟨a, b⟩ := hc x hx hu
    refine ⟨a, b, ?_⟩
    rcases hv x hx with h | h
    · exact (Config.survives_text w pr _ _ h).1
    · exact absurd h.1 hu
  have hsett : ∀ x ∈ c.vars, x.get st.base = .unset ∨ settable (Config.showVal pr (x.get st.base)) = true := by
    intro x hx
    rcases hv x hx with h | h
    · exact .inr (Restart.settable_of _ (Config.survives_text w pr _ _ h).1)
    · exact .inl h.1
  obtain ⟨d0', u1, _, usec, unone, _⟩ := Config.toParser_spec pr st.base c.vars Config.noData hsett
  rw [t1, Option.some.injEq] at u1
  subst u1
  have d0def : ∀ o, findOpt (DEFAULT, o) d0.opts = none := by
    intro o
    rw [unone (DEFAULT, o) (fun x hx hu e => hu (hdef x hx (by
      simp only [Prod.mk.injEq] at e; exact e.1)))]
    rfl
  -- where the sections of `d0` come from
  have d0sec : ∀ s ∈ d0.sections, ∃ x ∈ c.vars, x.sec = s := by
    have : ∀ (xs : List Config.Var) (d d' : Config.Data), Config.toParser pr st.base xs d = some d' →
        ∀ s ∈ d'.sections, s ∈ d.sections ∨ ∃ x ∈ xs, x.sec = s := by
      intro xs
      induction xs with
      | nil => intro d d' h s hs; simp only [Config.toParser, Option.some.injEq] at h; exact .inl (h ▸ hs)
      | cons x xs ih =>
        intro d d' h s hs
        simp only [Config.toParser] at h
        generalize hd1 : (if x.sec ∈ d.sections ∨ x.sec = DEFAULT then d
          else { d with sections := d.sections ++ [x.sec] }) = d1 at h
        have h1 : ∀ s ∈ d1.sections, s ∈ d.sections ∨ s = x.sec := by
          subst hd1
          split
          · exact fun s h => .inl h
          · intro s h; simpa using h
        have fin : ∀ d2 : Config.Data, d2.sections = d1.sections → Config.toParser pr st.base xs d2 = some d' →
            s ∈ d.sections ∨ ∃ y ∈ x :: xs, y.sec = s := by
          intro d2 e2 h2
          rcases ih d2 d' h2 s hs with h3 | ⟨y, hy, e⟩
          · rw [e2] at h3
            rcases h1 s h3 with h4 | h4
            · exact .inl h4
            · exact .inr ⟨x, by simp, h4.symm⟩
          · exact .inr ⟨y, by simp [hy], e⟩
        by_cases hu : x.get st.base = .unset
        · rw [if_pos hu] at h; exact fin d1 rfl h
        · rw [if_neg hu] at h
          split at h
          · exact fin _ (by rfl) h
          · simp at h
    intro s hs
    rcases this c.vars Config.noData d0 t1 s hs with h | h
    · simp [Config.noData] at h
    · exact h
  -- all sections
  have hset1 : ∀ n ∈ c.secs, st.sec n ≠ none := fun n hn => by obtain ⟨l, e, _⟩ := hsec n hn; simp [e]
  have hset2 : ∀ n ∈ c.params, st.param n ≠ none := fun n hn => by obtain ⟨m, e, _⟩ := hpar n hn; simp [e]
  generalize hL : plains st c.secs ++ parametric st c.params = L
  have hmem : ∀ e ∈ L, (∃ n ∈ c.secs, e.1 = n ∧ st.sec n = some e.2 ∧ Tidy e.2) ∨
      ∃ n ∈ c.params, ∃ m, st.param n = some m ∧ ∃ p, e.1 = n ++ ':' :: p ∧ (p, e.2) ∈ m ∧
        ']' ∉ p ∧ '\n' ∉ p ∧ Tidy e.2 := by
    intro e he
    rw [← hL] at he
    rcases List.mem_append.1 he with he | he
    · obtain ⟨n, hn, rfl⟩ := List.mem_map.1 he
      obtain ⟨l, hl, ht⟩ := hsec n hn
      refine .inl ⟨n, hn, rfl, ?_, ?_⟩
      · rw [hl]; rfl
      · rw [hl]; exact ht
    · obtain ⟨n, hn, he⟩ := List.mem_flatMap.1 he
      obtain ⟨m, hm, _, hall⟩ := hpar n hn
      rw [hm] at he
      obtain ⟨x, hx, rfl⟩ := List.mem_map.1 he
      exact .inr ⟨n, hn, m, hm, x.1, rfl, hx, hall x hx⟩
  have hmem1 : ∀ n ∈ c.secs, ∀ l, st.sec n = some l → (n, l) ∈ L := by
    intro n hn l hl
    rw [← hL]
    refine List.mem_append.2 (.inl (List.mem_map.2 ⟨n, hn, ?_⟩))
    rw [hl]; rfl
  have hmem2 : ∀ n ∈ c.params, ∀ m, st.param n = some m → ∀ e ∈ m, (n ++ ':' :: e.1, e.2) ∈ L := by
    intro n hn m hm e he
    rw [← hL]
    refine List.mem_append.2 (.inr (List.mem_flatMap.2 ⟨n, hn, ?_⟩))
    rw [hm]
    exact List.mem_map.2 ⟨e, he, rfl⟩
  have hcolonD : ∀ n p : Str, n ++ ':' :: p ≠ DEFAULT := by
    intro n p e
    have : ':' ∈ DEFAULT := by rw [← e]; simp
    exact absurd this (by decide)
  have hLhead : ∀ e ∈ L, Headed e.1 ∧ Tidy e.2 := by
    intro e he
    rcases hmem e he with ⟨n, hn, e1, _, ht⟩ | ⟨n, hn, m, hm, p, e1, _, hp1, hp2, ht⟩
    · exact ⟨e1 ▸ (hnames n hn).1, ht⟩
    · refine ⟨?_, ht⟩
      rw [e1]
      obtain ⟨a, b, c'⟩ := hpnames n hn
      refine ⟨hcolonD n p, by simp, ?_, ?_⟩
      · simp only [List.mem_append, List.mem_cons, not_or]
        exact ⟨b, by decide, hp1⟩
      · simp only [List.mem_append, List.mem_cons, not_or]
        exact ⟨c', by decide, hp2⟩
  have hLnodup : (L.map (·.1)).Nodup := by
    rw [← hL, List.map_append, List.nodup_append]
    refine ⟨?_, parametric_nodup st c.params hcp (fun n hn => (hpnames n hn).1) (fun n hn m hm => ?_), ?_⟩
    · unfold plains
      rw [List.map_map]
      have : ((fun x : Str × Dict => x.1) ∘ fun n => (n, (st.sec n).getD [])) = id := rfl
      rw [this, List.map_id]
      exact hcs
    · obtain ⟨m', e, h, _⟩ := hpar n hn
      rw [hm, Option.some.injEq] at e
      exact e ▸ h
    · intro a ha b hb hab
      obtain ⟨x, hx, rfl⟩ := List.mem_map.1 ha
      obtain ⟨n, hn, rfl⟩ := List.mem_map.1 hx
      obtain ⟨y, hy, rfl⟩ := List.mem_map.1 hb
      obtain ⟨k, hk, hy⟩ := List.mem_flatMap.1 hy
      obtain ⟨z, _, rfl⟩ := List.mem_map.1 hy
      dsimp only at hab
      exact (hnames n hn).2 (hab ▸ (by simp))
  have hLfresh : ∀ e ∈ L, e.1 ∉ d0.sections := by
    intro e he hc'
    obtain ⟨x, hx, ex⟩ := d0sec _ hc'
    rcases hmem e he with ⟨n, hn, e1, _⟩ | ⟨n, hn, m, hm, p, e1, _⟩
    · exact (hvs x hx).1 (by rw [ex, e1]; exact hn)
    · exact (hvs x hx).2 (by rw [ex, e1]; simp)
  obtain ⟨d, hput⟩ := (putAll_ok L d0 m0.default).2 (fun e he => ⟨(hLhead e he).1.1, fun f hf =>
    Restart.settable_of _ ((hLhead e he).2.percent f hf)⟩)
  obtain ⟨md, hsecs, hother, hown⟩ := putAll_spec ok L d0 d hput m0 (fun e he => ⟨(hLhead e he).1.2, fun f hf =>
    ⟨(hLhead e he).2.named f hf, (hLhead e he).2.clean f hf, (hLhead e he).2.percent f hf⟩⟩)
  have hown' := hown hLnodup (fun e he => (hLhead e he).2.keys) hLfresh
  have hwrite : write pr c st = .ok (IniText.write (IniText.ofConfig d)) := by
    unfold write parserObj
    rw [show ({ sections := [], opts := [] } : Config.Data) = Config.noData from rfl, t1]
    dsimp only
    rw [putSections_eq st c.secs d0 hset1]
    rw [← hL, putAll_append] at hput
    cases h1 : putAll (plains st c.secs) d0 with
    | error x => rw [h1] at hput; simp [Except.bind] at hput
    | ok d1 =>
      rw [h1] at hput
      simp only [Except.bind] at hput ⊢
      rw [putParams_eq st c.params d1 hset2, hput]
      rfl
  refine ⟨_, hwrite, ?_⟩
  -- reading the text
  have md' : Made (fun k v => Named k.2 ∧ Clean v) d :=
    ⟨md.sections, md.default, md.headed, md.keys, md.known, fun e he => ⟨(md.opts e he).1, (md.opts e he).2.1⟩⟩
  have hf : ∀ k, find k (IniText.ofConfig d).opts = (findOpt k d.opts).map some := by
    intro k
    rw [IniText.findOpt_eq]
    exact IniText.find_map some k d.opts
  have hsane : IniText.Sane (IniText.ofConfig d) := by
    refine ⟨md.sections, md.default, ?_, ?_, md.headed, ?_⟩
    · simp only [IniText.ofConfig, List.map_map, Function.comp_def]; exact md.keys
    · intro e he
      obtain ⟨x, hx, rfl⟩ := List.mem_map.1 he
      exact md.known x hx
    · intro e he
      obtain ⟨x, hx, rfl⟩ := List.mem_map.1 he
      exact (md.opts x hx).1
  obtain ⟨r1, r2, r3⟩ := IniText.C106_round_partial (IniText.ofConfig d) hsane (by
    intro k v h
    rw [hf] at h
    simp only [Option.map_eq_some_iff, Option.some.injEq, exists_eq_right] at h
    rw [IniText.findOpt_eq] at h
    exact (md.opts _ (IniText.mem_of_find h)).2.1)
  generalize htext : IniText.write (IniText.ofConfig d) = text at r1 r2 r3 ⊢
  generalize hR : (IniText.read IniText.noData text).1 = R at r2
  have Ropt : ∀ k, find k R.opts = (findOpt k d.opts).map some := by
    intro k
    rw [← hR]
    exact (r3 k).trans (hf k)
  have Rsec : ∀ s, s ∈ R.sections ↔ s ∈ d0.sections ∨ s ∈ L.map (·.1) := by
    intro s
    rw [r2]
    exact hsecs s
  have hdefL : DEFAULT ∉ L.map (·.1) := by
    intro h
    obtain ⟨e, he, e1⟩ := List.mem_map.1 h
    exact (hLhead e he).1.1 e1
  have Rdef : ∀ o, find (DEFAULT, o) R.opts = none := by
    intro o
    rw [Ropt, hother (DEFAULT, o) hdefL, d0def o]
    rfl
  -- variables are read as before
  have hvars : Config.readVars w (get R) c.vars Config.init = Config.readVars w d0.get c.vars Config.init := by
    refine readVars_congr w c.vars Config.init fun x hx => ?_
    have hxs := usec x hx
    have hxL : x.sec ∉ L.map (·.1) := by
      intro h
      obtain ⟨e, he, e1⟩ := List.mem_map.1 h
      rcases hmem e he with ⟨n, hn', e2, _⟩ | ⟨n, hn', m, hm, p, e2, _⟩
      · exact (hvs x hx).1 (by rw [← e1, e2]; exact hn')
      · exact (hvs x hx).2 (by rw [← e1, e2]; simp)
    unfold get Config.Data.get
    rw [if_pos (hxs.imp_right fun h => (Rsec _).2 (.inl h)), if_pos hxs]
    have e1 : Data.names R x.sec x.name = (findOpt (x.sec, x.name) d0.opts).map some := by
      unfold Data.names
      rw [Rdef, Ropt, hother (x.sec, x.name) hxL, Option.or_none]
    rw [e1, d0def, Option.or_none]
    cases hfo : findOpt (x.sec, x.name) d0.opts with
    | none => rfl
    | some v =>
      have hp : '%' ∉ v := by
        rw [IniText.findOpt_eq] at hfo
        exact (m0.opts _ (IniText.mem_of_find hfo)).2.2
      simp only [Option.map_some, Config.interp_self v hp]
      rw [show expand (Data.names R x.sec) maxDepth v = some v from (C107_value _ _ _ _).2 (means_self _ 9 hp)]
  -- what sections hold
  have hitems : ∀ e ∈ L, ∃ l', items R e.1 = .found l' ∧ Same l' e.2 := by
    intro e he
    have hin : e.1 ∈ R.sections := (Rsec _).2 (.inr (List.mem_map.2 ⟨e, he, rfl⟩))
    have hnm : ∀ o, behind (fun s o => find (s, o) R.opts) e.1 o = (e.2.lookup o).map some := by
      intro o
      unfold behind
      dsimp only
      rw [Rdef, Ropt, hown' e he o]
      cases e.2.lookup o <;> rfl
    have hsays : ∀ o t, Says (fun s o => find (s, o) R.opts) e.1 o t ↔ e.2.lookup o = some t := by
      intro o t
      unfold Says
      rw [hnm o]
      cases hl : e.2.lookup o with
      | none => simp
      | some v =>
        have hp := (hLhead e he).2.percent _ (mem_of_lookup hl)
        simp only [Option.map_some, Option.some.injEq]
        constructor
        · intro h; exact means_unique (means_self _ 9 hp) h
        · rintro rfl; exact means_self _ 9 hp
    cases hi : items R e.1 with
    | missing => exact absurd (.inr hin) (items_missing.1 hi)
    | error =>
      obtain ⟨_, o, ho1, ho2⟩ := items_error.1 hi
      rw [hnm o] at ho1
      cases hl : e.2.lookup o with
      | none => rw [hl] at ho1; simp at ho1
      | some v => exact absurd ((hsays o v).2 hl) (ho2 v)
    | found l' =>
      refine ⟨l', rfl, fun o => ?_⟩
      have h := fun t => ((items_found hi).2 o t).trans (hsays o t)
      cases h1 : e.2.lookup o with
      | none =>
        cases h2 : l'.lookup o with
        | none => rfl
        | some t => rw [(h t).1 h2] at h1; cases h1
      | some t => exact (h t).2 h1
  have hpmatch : ∀ n ∈ c.params, ∀ m, st.param n = some m → ∀ k ∈ matching R n, ∃ e ∈ m, k = n ++ ':' :: e.1 := by
    intro n hn' m hm k hk
    obtain ⟨⟨p, rfl⟩, hin⟩ := mem_matching.1 hk
    rcases (Rsec _).1 hin with h | h
    · obtain ⟨x, hx, ex⟩ := d0sec _ h
      exact absurd (by rw [ex]; simp) (hvs x hx).2
    · obtain ⟨e, he, e1⟩ := List.mem_map.1 h
      rcases hmem e he with ⟨n', hn2, e2, _⟩ | ⟨n', hn2, m', hm2, p', e2, hp, _⟩
      · exact absurd (by rw [← e2, e1]; simp) (hnames n' hn2).2
      · obtain ⟨e3, e4⟩ := colon_inj (hpnames n hn').1 (hpnames n' hn2).1 (e1.symm.trans e2)
        subst e3 e4
        rw [hm, Option.some.injEq] at hm2
        subst hm2
        exact ⟨(p, e.2), hp, rfl⟩
  have hflag : (readCommit w c R whole' init).2 = false := by
    unfold readCommit
    dsimp only
    have t2' : (Config.readVars w (get R) c.vars init.base).2 = false := by
      rw [show init.base = Config.init from rfl, hvars]; exact t2
    rw [if_neg (by rw [t2']; simp)]
    unfold readRest
    dsimp only
    have h1 : ¬ (readSections R c.secs { init with base := (Config.readVars w (get R) c.vars init.base).1 }).2 = true := by
      rw [readSections_raises]
      rintro ⟨n, hn', he⟩
      obtain ⟨l, hl, _⟩ := hsec n hn'
      obtain ⟨l', hi, _⟩ := hitems _ (hmem1 n hn' l hl)
      rw [he] at hi; cases hi
    rw [if_neg h1]
    have h2 : ¬ (readParams R c.params (readSections R c.secs
        { init with base := (Config.readVars w (get R) c.vars init.base).1 }).1).2 = true := by
      rw [readParams_raises]
      rintro ⟨n, hn', he⟩
      obtain ⟨m, hm, _⟩ := hpar n hn'
      obtain ⟨k, hk, hno⟩ := (readParam_none R n _ _).1 he
      obtain ⟨e, he', rfl⟩ := hpmatch n hn' m hm k hk
      obtain ⟨l', hi, _⟩ := hitems _ (hmem2 n hn' m hm e he')
      exact hno l' hi
    rw [if_neg h2]
    cases h3 : whole' (readParams R c.params (readSections R c.secs
        { init with base := (Config.readVars w (get R) c.vars init.base).1 }).1).1 with
    | ok => exact Bool.eq_false_iff.2 h2
    | refuse => rfl
    | raise => exact absurd h3 (hw _)
  have hread : readString w c whole' text init = readCommit w c R whole' init := by
    unfold readString
    cases hr' : IniText.read IniText.noData text with
    | mk a b =>
      rw [hr'] at r1 hR
      dsimp only at r1 hR
      subst r1 hR
      rfl
  rw [hread]
  obtain ⟨_, g2, g3, g4⟩ := readCommit_ok hflag
  refine ⟨hflag, ?_, ?_, ?_⟩
  · intro x hx
    have := t3 x hx
    rw [← hvars] at this
    rw [← this]
    unfold Config.Var.get
    rw [g2]
    rfl
  · intro n hn'
    obtain ⟨l, hl, _⟩ := hsec n hn'
    obtain ⟨l', hi, hsame⟩ := hitems _ (hmem1 n hn' l hl)
    refine ⟨l, l', hl, ?_, hsame⟩
    rw [(g3 n hn').2, hi]
    rfl
  · intro n hn'
    obtain ⟨m, hm, hmn, _⟩ := hpar n hn'
    obtain ⟨m', hm', e'⟩ := g4 n hn'
    refine ⟨m, m', hm, e', fun p => ?_⟩
    have hl := readParam_lookup R n (matching R n) [] m' hm' (fun k hk => (mem_matching.1 hk).1) p
    cases hmp : m.lookup p with
    | none =>
      refine .inl ⟨rfl, ?_⟩
      rw [hl, if_neg]
      · rfl
      · intro hk
        obtain ⟨e, he, e1⟩ := hpmatch n hn' m hm _ hk
        have : p = e.1 := by simpa using e1
        subst this
        rw [lookup_of_mem hmn he] at hmp
        cases hmp
    | some l =>
      have hin := hmem2 n hn' m hm _ (mem_of_lookup hmp)
      obtain ⟨l', hi, hsame⟩ := hitems _ hin
      dsimp only at hi hsame
      refine .inr ⟨l, l', rfl, ?_, hsame⟩
      rw [hl, if_pos, hi]
      exact mem_matching.2 ⟨⟨p, rfl⟩, (Rsec _).2 (.inr (List.mem_map.2 ⟨_, hin, rfl⟩))⟩

/-! ## The environment of jobs -/

/-- What a configuration has as `environment`, as the controller sees it (ctrl 697-698). -/
def environmentOf (st : St) : Dict := (st.sec "environment".toList).getD []

/-- **C107**: the environment of the command of a job, with a configuration read from a text: a variable that plainbox
or the environment of the process gives no value is in it exactly if the text says it in `environment` or in `DEFAULT`,
with what it says. -/
theorem C107_environment (w : Config.World) (c : Decl) (whole : St → Config.Verdict) (text : Str)
    (h : (readString w c whole text init).2 = false) (hc : "environment".toList ∈ c.secs)
    (base : Ctrl.Env) (j : Ctrl.Job) (nest data k : Str) (hk : Ctrl.intended base j nest data k = none) (v : Str) :
    (Ctrl.execEnv base j (environmentOf (readString w c whole text init).1) nest data).lookup k = some v ↔
      "environment".toList ∈ sectionsOf text ∧ Says (inText text) "environment".toList k v := by
  rw [Ctrl.C55_environment, hk, Option.none_or]
  unfold environmentOf
  have hs := C107_section w c whole text init h "environment".toList hc
  by_cases hin : "environment".toList = DEFAULT ∨ "environment".toList ∈ sectionsOf text
  · rw [if_pos hin] at hs
    obtain ⟨l, e, hl⟩ := hs
    rw [e, Option.getD_some, hl k v]
    constructor
    · exact fun g => ⟨hin.resolve_left (by decide), g⟩
    · exact fun g => g.2
  · rw [if_neg hin] at hs
    rw [hs]
    simp only [not_or] at hin
    constructor
    · intro g; simp [St.sec, init] at g
    · exact fun g => absurd g.1 hin.2

/-! ## Examples -/

/-- A class like `PlainBoxConfig` with the parametric section of a launcher (applogic 40-100, launcher 207-226). -/
def demoDecl : Decl :=
  { vars := [Config.vText], secs := ["environment".toList], params := ["report".toList] }

/-- A file. -/
def demoText : Str :=
  "[environment]\nHOME = /h\nDATA = %(HOME)s/data\nRATE = 5%%\nflag\n[report:a]\nstream = stdout\n[report:b]\n".toList

/-- Accepts everything. -/
def fine : St → Config.Verdict := fun _ => .ok

/-- A function on what was read. -/
def loaded (text : Str) (st : St) : St × Bool := readString Config.someWorld demoDecl fine text st

example : (loaded demoText init).2 = false ∧
    (loaded demoText init).1.sec "environment".toList = some [("HOME".toList, "/h".toList),
      ("DATA".toList, "/h/data".toList), ("RATE".toList, "5%".toList), ("flag".toList, [])] ∧
    (loaded demoText init).1.param "report".toList =
      some [("a".toList, [("stream".toList, "stdout".toList)]), ("b".toList, [])] := by
  decide +kernel

example : Ctrl.intended [] Ctrl.exJob [] [] "DATA".toList = none ∧
    (Ctrl.execEnv [] Ctrl.exJob (environmentOf (loaded demoText init).1) [] []).lookup "DATA".toList =
      some "/h/data".toList := by
  decide +kernel

/-- A class with these sections, without variables: what is needed in `C107_round_partial` holds after reading a
tidy text. -/
example : let c : Decl := { demoDecl with vars := [] }
    let text := "[environment]\nHOME = /h\nDATA = a\n  b\n[report:a]\nstream = stdout\n[report:b]\n".toList
    let st := (readString Config.someWorld c fine text init).1
    (write Config.somePrinter c st).toOption =
      some "[environment]\nDATA = a\n\tb\nHOME = /h\n\n[report:a]\nstream = stdout\n\n[report:b]\n\n".toList ∧
    st.sec "environment".toList = some [("HOME".toList, "/h".toList), ("DATA".toList, "a\nb".toList)] := by
  decide +kernel

example : Tidy [("HOME".toList, "/h".toList), ("DATA".toList, "a\nb".toList)] :=
  ⟨by decide, by
    intro e he
    refine IniText.named_of ?_
    revert e he
    decide, by
    intro e he
    refine (IniText.kept_iff _).1 ?_
    revert e he
    decide, by decide⟩

/-! ## What does not hold -/

/-- Not so without the first condition: an option of `DEFAULT`, where variables like `sandbox` live, is in every section,
and so in the environment of every job. -/
theorem C107_default_violated :
    ∃ text, IniText.option text ("environment".toList, "extra".toList) = none ∧ (loaded text init).2 = false ∧
      (Ctrl.execEnv [] Ctrl.exJob (environmentOf (loaded text init).1) [] []).lookup "extra".toList =
        some "yes".toList :=
  ⟨"[DEFAULT]\nextra = yes\n[environment]\nHOME = /h\n".toList, by decide +kernel⟩

/-- A section that is not in the text that is read keeps what it had, although variables go back to their defaults. -/
theorem C107_stale_violated :
    ∃ text text', sectionsOf text' = [] ∧ (loaded text' (loaded text init).1).2 = false ∧
      (loaded text' (loaded text init).1).1.sec "environment".toList = some [("A".toList, "1".toList)] :=
  ⟨"[environment]\nA = 1\n".toList, [], by decide +kernel⟩

/-- A configuration with a section that was never set cannot be written: `AttributeError`. -/
theorem C107_unset_violated : write Config.somePrinter demoDecl init = .error .unset := by decide +kernel

/-- The percent sign in a section: alone it stops the reading with an exception that is not a problem of the
configuration; doubled it is not doubled when it is written, so it cannot be written, or comes back as less. -/
theorem C107_percent_violated :
    (loaded "[environment]\nA = 50%\n".toList init).2 = true ∧
      (∃ st, (st = (loaded "[environment]\nA = 50%%\n[report:a]\n".toList init).1) ∧
        (loaded "[environment]\nA = 50%%\n[report:a]\n".toList init).2 = false ∧
        write Config.somePrinter demoDecl st = .error .value) ∧
      ∃ st text, st = (loaded "[environment]\nA = 50%%%%\n".toList init).1 ∧
        write Config.somePrinter demoDecl st = .ok text ∧
        st.sec "environment".toList = some [("A".toList, "50%%".toList)] ∧
        (loaded text init).1.sec "environment".toList = some [("A".toList, "50%".toList)] :=
  ⟨by decide +kernel, ⟨_, rfl, by decide +kernel, by decide +kernel⟩,
    ⟨_, "[s]\n\n[environment]\nA = 50%%\n\n".toList, rfl, by decide +kernel, by decide +kernel, by decide +kernel⟩⟩

/-- A class with a section whose name has a colon: its options are also in the parametric section. -/
theorem C107_colon_violated : ∃ (c : Decl) (st : St) (text : Str), write Config.somePrinter c st = .ok text ∧
    st.param "a".toList = some [] ∧
    (readString Config.someWorld c fine text init).1.param "a".toList =
      some [("b".toList, [("x".toList, "1".toList)])] :=
  ⟨⟨[], ["a:b".toList], ["a".toList]⟩,
    { init with secs := [("a:b".toList, [("x".toList, "1".toList)])], params := [("a".toList, [])] },
    "[a:b]\nx = 1\n\n".toList, by decide +kernel, by decide +kernel, by decide +kernel⟩

end Verif.Sections
