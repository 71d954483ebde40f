import Verif.Model.Template
import Verif.Props.Checksum
import Verif.Lemmas.Assoc

/-! # C35, C54: templates -/

set_option linter.unusedSimpArgs false

namespace Verif.Template

open Verif.Checksum (Str PVal Unit' dictSet)
open Verif.Assoc

/-! ## Helper lemmas -/

theorem lookup_params (acc : List Str) (r : Res) (i : Nat) (k : Str) :
    (paramsFor acc r i).lookup k =
      if k = "__index__".toList then some (.num i)
      else if k ∈ acc then (r.lookup k).map .str else none := by
  unfold paramsFor
  rw [lookup_dictSet, lookup_map, lookup_filter (fun k => acc.contains k)]
  by_cases h : k ∈ acc
  · rw [if_pos (List.contains_iff_mem.2 h), if_pos h]
  · rw [if_neg (fun e => h (List.contains_iff_mem.1 e)), if_neg h]; rfl

theorem mem_mapM {α β : Type} {f : α → Option (List β)} {l : List α} {acc : List β}
    (h : (l.mapM f).map List.flatten = some acc) (b : β) :
    b ∈ acc ↔ ∃ x ∈ l, ∃ y, f x = some y ∧ b ∈ y := by
  induction l generalizing acc with
  | nil => simp at h; subst h; simp
  | cons x l ih =>
    rw [List.mapM_cons] at h
    cases hx : f x with
    | none => rw [hx] at h; simp at h
    | some y =>
      rw [hx] at h
      cases hl : l.mapM f with
      | none => rw [hl] at h; simp at h
      | some ys =>
        rw [hl] at h ih
        simp only [Option.pure_def, Option.bind_eq_bind, Option.bind_some, Option.map_some,
          List.flatten_cons, Option.some.injEq] at h ih
        subst h
        rw [List.mem_append, ih rfl]
        constructor
        · rintro (hb | ⟨x', hx', y', hy', hb⟩)
          · exact ⟨x, by simp, y, hx, hb⟩
          · exact ⟨x', by simp [hx'], y', hy', hb⟩
        · rintro ⟨x', hx', y', hy', hb⟩
          rcases List.mem_cons.1 hx' with rfl | hx'
          · rw [hx] at hy'; cases hy'; exact .inl hb
          · exact .inr ⟨x', hx', y', hy', hb⟩

/-! ## C35 -/

/-- A parameter is mentioned by a field of the unit. -/
def Mentioned (jinja : Str → Option (List Str)) (engine : Str) (data : List (Str × Str)) (k : Str) :
    Prop :=
  ∃ kv ∈ data, ∃ ks, (if engine = "jinja2".toList then jinja kv.2
    else (parseFormat kv.2).map fun fs => fs.map (·.1)) = some ks ∧ k ∈ ks

/-- The filter accepts the resource. -/
def Accepts (filter : Option (Res → FOut)) (r : Res) : Prop :=
  ∀ f, filter = some f → f r = .value true

instance (filter : Option (Res → FOut)) (r : Res) : Decidable (Accepts filter r) :=
  match filter with
  | none => .isTrue (by intro f h; cases h)
  | some f => decidable_of_iff (f r = .value true)
      ⟨fun h g hg => by cases hg; exact h, fun h => h f rfl⟩

/-- What a unit made from the template `t` and the resource `r` as number `i` looks like. -/
structure MadeFrom {P O : Type} (jinja : Str → Option (List Str)) (t : Tmpl P O) (cls : Cls) (r : Res)
    (i : Nat) (u : Inst P O) : Prop where
  cls : u.cls = cls
  /-- fields: those of the template that are not about the template, and two fixed ones -/
  data : ∀ k, u.data.lookup k =
    if k = "unit".toList then some (templateUnit t.data)
    else if k = "template-engine".toList then some (engine t.data)
    else if ("template-".toList).isPrefixOf k then none
    else t.data.lookup k
  /-- the number -/
  index : u.params.lookup "__index__".toList = some (.num i)
  /-- mentioned parameters are supplied with the value of the resource -/
  supplied : ∀ k, k ≠ "__index__".toList → Mentioned jinja (engine t.data) u.data k →
    u.params.lookup k = (r.lookup k).map .str
  /-- and nothing else -/
  only : ∀ k, k ≠ "__index__".toList → ¬ Mentioned jinja (engine t.data) u.data k →
    u.params.lookup k = none

theorem instantiateTemplate_fields {P O : Type} {cls : Cls} {data raw : List (Str × Str)} {o : O}
    {p : P} {ps : List (Str × PVal)} {u : Inst P O}
    (h : instantiateTemplate cls data raw o p ps = .ok u) :
    u.cls = cls ∧ u.data = data ∧ u.params = ps := by
  cases cls <;> simp [instantiateTemplate] at h <;> subst h <;> exact ⟨rfl, rfl, rfl⟩

theorem targetData_lookup (d0 d : List (Str × Str)) (k : Str) :
    (targetData d0 d).lookup k =
      if k = "unit".toList then some (templateUnit d0)
      else if k = "template-engine".toList then some (engine d0)
      else if ("template-".toList).isPrefixOf k then none
      else d.lookup k := by
  unfold targetData
  rw [lookup_dictSet, lookup_dictSet, lookup_filter (fun k => !("template-".toList).isPrefixOf k)]
  generalize ("template-".toList).isPrefixOf k = b
  cases b
  · rfl
  · rfl

theorem one_made {P O : Type} {jinja : Str → Option (List Str)} {t : Tmpl P O} {cls : Cls} {r : Res}
    {i : Nat} {u : Inst P O} (h : instantiateOne jinja t cls r i = .ok u) :
    MadeFrom jinja t cls r i u := by
  unfold instantiateOne at h
  cases ha : accessedAll jinja (engine t.data) (targetData t.data t.data) with
  | none => rw [ha] at h; cases h
  | some acc =>
    rw [ha] at h
    obtain ⟨h1, h2, h3⟩ := instantiateTemplate_fields h
    have hm : ∀ k, k ∈ acc ↔ Mentioned jinja (engine t.data) u.data k := by
      intro k
      rw [h2]
      exact mem_mapM ha k
    refine ⟨h1, ?_, ?_, ?_, ?_⟩
    · intro k; rw [h2]; exact targetData_lookup _ _ k
    · rw [h3, lookup_params, if_pos rfl]
    · intro k hk hmk
      rw [h3, lookup_params, if_neg hk, if_pos ((hm k).2 hmk)]
    · intro k hk hmk
      rw [h3, lookup_params, if_neg hk, if_neg (fun h => hmk ((hm k).1 h))]

theorem should_accepts {filter : Option (Res → FOut)} {r : Res} {b : Bool}
    (h : shouldInstantiate filter r = .ok b) : b = true ↔ Accepts filter r := by
  unfold shouldInstantiate at h
  cases filter with
  | none =>
    simp only [Except.ok.injEq] at h
    subst h
    exact ⟨fun _ f hf => (by cases hf), fun _ => rfl⟩
  | some f =>
    simp only at h
    cases hf : f r with
    | value c =>
      rw [hf] at h
      simp only [Except.ok.injEq] at h
      subst h
      constructor
      · rintro rfl g hg
        cases hg
        exact hf
      · intro hacc
        have := hacc f rfl
        rw [hf] at this
        cases this; rfl
    | failed =>
      rw [hf] at h
      simp only [Except.ok.injEq] at h
      subst h
      constructor
      · intro h; cases h
      · intro hacc
        have := hacc f rfl
        rw [hf] at this
        cases this
    | raised => rw [hf] at h; cases h

theorem loop_made {P O : Type} {jinja : Str → Option (List Str)} {filter : Option (Res → FOut)}
    {t : Tmpl P O} {cls : Cls} : ∀ {rs : List Res} {n : Nat} {us : List (Inst P O)},
    instLoop jinja filter t cls rs n = .ok us →
    us.length = (rs.filter fun r => decide (Accepts filter r)).length ∧
    ∀ i r u, (rs.filter fun r => decide (Accepts filter r))[i]? = some r → us[i]? = some u →
      MadeFrom jinja t cls r (n + i + 1) u
  | [], n, us, h => by
    simp only [instLoop, Except.ok.injEq] at h
    subst h
    simp
  | r :: rs, n, us, h => by
    simp only [instLoop] at h
    cases hs : shouldInstantiate filter r with
    | error x => rw [hs] at h; cases h
    | ok b =>
      rw [hs] at h
      simp only [Except.bind] at h
      have hacc := should_accepts hs
      by_cases hb : b = true
      · rw [if_pos hb] at h
        have ha : Accepts filter r := hacc.1 hb
        cases h1 : instantiateOne jinja t cls r (n + 1) with
        | error x => rw [h1] at h; cases h
        | ok u =>
          rw [h1] at h
          simp only at h
          cases h2 : instLoop jinja filter t cls rs (n + 1) with
          | error x => rw [h2] at h; cases h
          | ok us' =>
            rw [h2] at h
            simp only [Except.map, Except.ok.injEq] at h
            subst h
            obtain ⟨hl, hi⟩ := loop_made h2
            rw [List.filter_cons, if_pos (by simpa using ha)]
            refine ⟨by simp [hl], ?_⟩
            intro i r' u' hr' hu'
            cases i with
            | zero =>
              simp only [List.getElem?_cons_zero, Option.some.injEq] at hr' hu'
              subst hr' hu'
              exact one_made h1
            | succ i =>
              simp only [List.getElem?_cons_succ] at hr' hu'
              have := hi i r' u' hr' hu'
              rw [show n + (i + 1) + 1 = n + 1 + i + 1 by omega]
              exact this
      · rw [if_neg hb] at h
        have ha : ¬ Accepts filter r := fun h => hb (hacc.2 h)
        rw [List.filter_cons, if_neg (by simpa using ha)]
        exact loop_made h

/-- C35: one unit for each resource accepted by the filter, in order, numbered from one, with the
fields of the template and exactly the mentioned attributes of the resource. -/
theorem C35_instantiate {P O : Type} (jinja : Str → Option (List Str))
    (filter : Option (Res → FOut)) (t : Tmpl P O) (rs : List Res) (us : List (Inst P O))
    (h : instantiateAll jinja filter t rs = .ok us) :
    ∃ cls, clsOf (templateUnit t.data) = some cls ∧
      us.length = (rs.filter fun r => decide (Accepts filter r)).length ∧
      ∀ i r u, (rs.filter fun r => decide (Accepts filter r))[i]? = some r → us[i]? = some u →
        MadeFrom jinja t cls r (i + 1) u := by
  unfold instantiateAll at h
  cases hc : clsOf (templateUnit t.data) with
  | none => rw [hc] at h; cases h
  | some cls =>
    rw [hc] at h
    obtain ⟨h1, h2⟩ := loop_made h
    refine ⟨cls, rfl, h1, ?_⟩
    intro i r u hr hu
    have := h2 i r u hr hu
    rwa [Nat.zero_add] at this

/-- C35: when instantiation succeeds at all. The unit class must be one that can be instantiated,
every field must be well formed, and the filter must not raise. -/
theorem C35_succeeds {P O : Type} (jinja : Str → Option (List Str))
    (filter : Option (Res → FOut)) (t : Tmpl P O) (rs : List Res)
    (hcls : clsOf (templateUnit t.data) ∈
      [some .unit, some .job, some .category, some .template])
    (hfmt : accessedAll jinja (engine t.data) (targetData t.data t.data) ≠ none)
    (hf : ∀ f, filter = some f → ∀ r ∈ rs, f r ≠ .raised) :
    ∃ us, instantiateAll jinja filter t rs = .ok us := by
  obtain ⟨acc, hacc⟩ := Option.ne_none_iff_exists'.1 hfmt
  have hone : ∀ cls, clsOf (templateUnit t.data) = some cls → ∀ r i, ∃ u,
      instantiateOne jinja t cls r i = .ok u := by
    intro cls hc r i
    unfold instantiateOne
    rw [hacc]
    rw [hc] at hcls
    simp only [List.mem_cons, Option.some.injEq, List.not_mem_nil, or_false] at hcls
    rcases hcls with rfl | rfl | rfl | rfl <;> exact ⟨_, rfl⟩
  have hloop : ∀ cls, clsOf (templateUnit t.data) = some cls → ∀ (rs : List Res) n,
      (∀ f, filter = some f → ∀ r ∈ rs, f r ≠ .raised) →
      ∃ us, instLoop jinja filter t cls rs n = .ok us := by
    intro cls hc rs
    induction rs with
    | nil => intro n _; exact ⟨[], rfl⟩
    | cons r rs ih =>
      intro n hf
      have ih := fun n => ih n (fun f hff x hx => hf f hff x (by simp [hx]))
      have hsh : ∃ b, shouldInstantiate filter r = .ok b := by
        unfold shouldInstantiate
        cases filter with
        | none => exact ⟨_, rfl⟩
        | some f =>
          have := hf f rfl r (by simp)
          simp only
          cases hr : f r with
          | value b => exact ⟨_, rfl⟩
          | failed => exact ⟨_, rfl⟩
          | raised => exact absurd hr this
      obtain ⟨b, hb⟩ := hsh
      simp only [instLoop, hb, Except.bind]
      by_cases hbt : b = true
      · rw [if_pos hbt]
        obtain ⟨u, hu⟩ := hone cls hc r (n + 1)
        obtain ⟨us, hus⟩ := ih (n + 1)
        rw [hu]
        simp only [hus, Except.map]
        exact ⟨_, rfl⟩
      · rw [if_neg hbt]
        exact ih n
  unfold instantiateAll
  cases hc : clsOf (templateUnit t.data) with
  | none => rw [hc] at hcls; simp at hcls
  | some cls => exact hloop cls hc rs 0 hf

/-- The part of an instance that the checksum looks at. -/
def Inst.unit {P O : Type} (ns : Option Str) (u : Inst P O) : Unit' := ⟨u.data, ns, some u.params⟩

/-- C35: units get equal content, and so equal checksums, whenever the resource attributes mentioned
by the template are equal and they have the same number. -/
theorem C35_content {P O D : Type} (sha : Str → D) (ns : Option Str)
    (jinja : Str → Option (List Str)) (t : Tmpl P O) (cls : Cls) (r r' : Res) (i : Nat)
    (u u' : Inst P O) (hr : (r.map (·.1)).Nodup) (hr' : (r'.map (·.1)).Nodup)
    (ht : (t.data.map (·.1)).Nodup)
    (h : instantiateOne jinja t cls r i = .ok u) (h' : instantiateOne jinja t cls r' i = .ok u')
    (heq : ∀ k, Mentioned jinja (engine t.data) u.data k → r.lookup k = r'.lookup k) :
    u.data = u'.data ∧ (∀ k, u.params.lookup k = u'.params.lookup k) ∧
      Checksum.checksum sha (u.unit ns) = Checksum.checksum sha (u'.unit ns) := by
  have hm := one_made h
  have hm' := one_made h'
  unfold instantiateOne at h h'
  cases ha : accessedAll jinja (engine t.data) (targetData t.data t.data) with
  | none => rw [ha] at h; cases h
  | some acc =>
    rw [ha] at h h'
    obtain ⟨_, h2, h3⟩ := instantiateTemplate_fields h
    obtain ⟨_, h2', h3'⟩ := instantiateTemplate_fields h'
    have hd : u.data = u'.data := by rw [h2, h2']
    have hlk : ∀ k, u.params.lookup k = u'.params.lookup k := by
      intro k
      by_cases hk : k = "__index__".toList
      · rw [hk, hm.index, hm'.index]
      · by_cases hmk : Mentioned jinja (engine t.data) u.data k
        · rw [hm.supplied k hk hmk, hm'.supplied k hk (hd ▸ hmk), heq k hmk]
        · rw [hm.only k hk hmk, hm'.only k hk (hd ▸ hmk)]
    have hnd : ∀ (r : Res), (r.map (·.1)).Nodup → ((paramsFor acc r i).map (·.1)).Nodup := by
      intro r hr
      apply nodup_dictSet
      rw [List.map_map]
      have : ((fun x : Str × PVal => x.1) ∘ fun kv : Str × Str => (kv.1, PVal.str kv.2)) =
        fun kv => kv.1 := rfl
      rw [this]
      exact hr.sublist (List.filter_sublist.map _)
    refine ⟨hd, hlk, ?_⟩
    refine Checksum.C33_same sha _ _ ⟨?_, ?_⟩ ?_ rfl ?_
    · rw [Inst.unit, h2]
      apply nodup_dictSet
      apply nodup_dictSet
      exact ht.sublist (List.filter_sublist.map _)
    · intro ps hps
      simp only [Inst.unit, Option.some.injEq] at hps
      rw [← hps, h3]
      exact hnd r hr
    · simp only [Inst.unit, hd]; exact .refl _
    · refine perm_of_lookup ?_ ?_ hlk
      · rw [h3]; exact hnd r hr
      · rw [h3']; exact hnd r' hr'

/-- C35, parameters looked up when a field is rendered, partial: for the default engine and fields
that name parameters simply (no attributes or indices, nothing nested in format specifications),
every parameter that rendering looks up is supplied when the resource has it. -/
theorem C35_lookups_partial {P O : Type} (jinja : Str → Option (List Str)) (t : Tmpl P O) (cls : Cls)
    (r : Res) (i : Nat) (u : Inst P O) (h : instantiateOne jinja t cls r i = .ok u)
    (he : engine t.data ≠ "jinja2".toList) (kv : Str × Str) (hkv : kv ∈ u.data)
    (fs : List (Str × Str)) (hp : parseFormat kv.2 = some fs)
    (hsimple : ∀ f ∈ fs, firstPart f.1 = f.1 ∧ parseFormat f.2 = some [])
    (names : List Str) (hn : lookups 2 kv.2 = some names) (n : Str) (hmem : n ∈ names)
    (hidx : n ≠ "__index__".toList) (v : Str) (hv : r.lookup n = some v) :
    u.params.lookup n = some (.str v) := by
  have hm := one_made h
  have hment : Mentioned jinja (engine t.data) u.data n := by
    refine ⟨kv, hkv, fs.map (·.1), by rw [if_neg he, hp]; rfl, ?_⟩
    unfold lookups at hn
    rw [hp] at hn
    simp only [Option.bind_some] at hn
    obtain ⟨f, hf, l, hl, hnl⟩ := (mem_mapM hn n).1 hmem
    obtain ⟨h1, h2⟩ := hsimple f hf
    have : lookups 1 f.2 = some [] := by
      unfold lookups
      rw [h2]; rfl
    rw [this] at hl
    simp only [Option.map_some, Option.some.injEq] at hl
    subst hl
    rw [h1] at hnl
    simp only [List.mem_cons, List.not_mem_nil, or_false] at hnl
    subst hnl
    exact List.mem_map.2 ⟨f, hf, rfl⟩
  rw [hm.supplied n hidx hment, hv]
  rfl

/-- A piece of a format string: plain text, or a field with an optional conversion and an optional
format specification. -/
inductive FPiece
  | text (s : Str)
  | field (name : Str) (conv : Option Char) (spec : Option Str)

/-- A conversion as written. -/
def convSrc : Option Char → Str
  | none => []
  | some c => ['!', c]

/-- A format specification as written. -/
def specSrc : Option Str → Str
  | none => []
  | some s => ':' :: s

/-- How the piece is written: braces of plain text are doubled. -/
def FPiece.src : FPiece → Str
  | .text s => (s.map fun c => if c = '{' ∨ c = '}' then [c, c] else [c]).flatten
  | .field n conv spec => '{' :: (n ++ (convSrc conv ++ (specSrc spec ++ ['}'])))

/-- Names, and specifications without braces. -/
def FPiece.Plain : FPiece → Prop
  | .text _ => True
  | .field n _ spec => (∀ c ∈ n, c ∉ ['{', '}', '[', ':', '!']) ∧
      ∀ s, spec = some s → '{' ∉ s ∧ '}' ∉ s

/-- The field of a piece. -/
def FPiece.found : FPiece → List (Str × Str)
  | .text _ => []
  | .field n _ spec => [(n, spec.getD [])]

theorem frun_append (st : FState × List (Str × Str)) (a b : Str) :
    frun st (a ++ b) = (frun st a).bind fun st => frun st b := by
  induction a generalizing st with
  | nil => rfl
  | cons c a ih =>
    simp only [List.cons_append, frun]
    cases fstep st c with
    | none => rfl
    | some st' => exact ih st'

theorem frun_text (s : Str) (out : List (Str × Str)) :
    frun (.lit, out) (FPiece.text s).src = some (.lit, out) := by
  induction s with
  | nil => rfl
  | cons c s ih =>
    have : (FPiece.text (c :: s)).src = (if c = '{' ∨ c = '}' then [c, c] else [c]) ++
        (FPiece.text s).src := by simp [FPiece.src]
    rw [this, frun_append]
    have h1 : frun (.lit, out) (if c = '{' ∨ c = '}' then [c, c] else [c]) = some (.lit, out) := by
      by_cases ho : c = '{'
      · subst ho; rfl
      · by_cases hc : c = '}'
        · subst hc; rfl
        · simp [ho, hc, frun, fstep]
    rw [h1]
    exact ih

theorem frun_name (n m : Str) (out : List (Str × Str)) (h : ∀ c ∈ n, c ∉ ['{', '}', '[', ':', '!']) :
    frun (.name m, out) n = some (.name (m ++ n), out) := by
  induction n generalizing m with
  | nil => simp [frun]
  | cons c n ih =>
    have hc := h c (by simp)
    simp only [List.mem_cons, List.not_mem_nil, or_false, not_or] at hc
    simp only [frun, fstep, nameStep, hc, if_false, Option.bind_some]
    rw [ih _ (fun x hx => h x (by simp [hx]))]
    simp

theorem frun_spec (s m n : Str) (out : List (Str × Str)) (h : '{' ∉ s ∧ '}' ∉ s) :
    frun (.spec n m 1, out) (s ++ ['}']) = some (.lit, out ++ [(n, m ++ s)]) := by
  induction s generalizing m with
  | nil => simp [frun, fstep]
  | cons c s ih =>
    have h1 : ¬ c = '{' := fun e => h.1 (by simp [e])
    have h2 : ¬ c = '}' := fun e => h.2 (by simp [e])
    simp only [List.cons_append, frun, fstep, h1, h2, if_false, Option.bind_some]
    rw [ih _ ⟨fun e => h.1 (by simp [e]), fun e => h.2 (by simp [e])⟩]
    simp

/-- What follows the name of a field. -/
theorem frun_tail (n : Str) (conv : Option Char) (spec : Option Str) (out : List (Str × Str))
    (h : ∀ s, spec = some s → '{' ∉ s ∧ '}' ∉ s) (st : FState)
    (hst : st = .name n ∨ (st = .opened ∧ n = [])) :
    frun (st, out) (convSrc conv ++ (specSrc spec ++ ['}'])) =
      some (.lit, out ++ [(n, spec.getD [])]) := by
  rcases hst with rfl | ⟨rfl, rfl⟩
  all_goals
    cases conv with
    | none =>
      cases spec with
      | none => simp [convSrc, specSrc, frun, fstep, nameStep]
      | some s =>
        simp only [convSrc, specSrc, List.nil_append, List.cons_append, frun, fstep, nameStep,
          Option.getD_some]
        simpa using frun_spec s [] _ out (h s rfl)
    | some c =>
      cases spec with
      | none => simp [convSrc, specSrc, frun, fstep, nameStep]
      | some s =>
        simp only [convSrc, specSrc, List.nil_append, List.cons_append, frun, fstep, nameStep,
          Option.getD_some]
        simpa using frun_spec s [] _ out (h s rfl)

theorem frun_piece (p : FPiece) (hp : p.Plain) (out : List (Str × Str)) :
    frun (.lit, out) p.src = some (.lit, out ++ p.found) := by
  cases p with
  | text s => simpa [FPiece.found] using frun_text s out
  | field n conv spec =>
    simp only [FPiece.src, FPiece.found, frun, fstep, if_true, Option.bind_some]
    cases n with
    | nil => exact frun_tail [] conv spec out hp.2 .opened (.inr ⟨rfl, rfl⟩)
    | cons c n =>
      have hc := hp.1 c (by simp)
      simp only [List.mem_cons, List.not_mem_nil, or_false, not_or] at hc
      simp only [List.cons_append, frun, fstep, nameStep, hc, if_false, Option.bind_some]
      rw [frun_append, frun_name n _ out (fun x hx => hp.1 x (by simp [hx])), Option.bind_some]
      exact frun_tail (c :: n) conv spec out hp.2 _ (.inl rfl)

/-- C35, which fields a format string has: those written in it, in order, whatever text, conversions
(`{a!r}`) and plain format specifications (`{a:>5}`) surround them. -/
theorem C35_fields (ps : List FPiece) (h : ∀ p ∈ ps, p.Plain) :
    parseFormat (ps.map FPiece.src).flatten = some (ps.map FPiece.found).flatten := by
  have : ∀ (ps : List FPiece) (out : List (Str × Str)), (∀ p ∈ ps, p.Plain) →
      frun (.lit, out) (ps.map FPiece.src).flatten = some (.lit, out ++ (ps.map FPiece.found).flatten) := by
    intro ps
    induction ps with
    | nil => intro out _; simp [frun]
    | cons p ps ih =>
      intro out h
      simp only [List.map_cons, List.flatten_cons]
      rw [frun_append, frun_piece p (h p (by simp)), Option.bind_some, ih _ (fun q hq => h q (by simp [hq]))]
      simp
  unfold parseFormat
  rw [this ps [] h]
  simp

example : ([FPiece.text "run {".toList, .field "name".toList (some 'r') none, .text "-".toList,
    .field "id".toList none (some ">5".toList)].map FPiece.src).flatten =
      "run {{{name!r}-{id:>5}".toList ∧
    parseFormat "run {{{name!r}-{id:>5}".toList =
      some [("name".toList, []), ("id".toList, ">5".toList)] := by
  constructor <;> decide +kernel


/-- A template for jobs with one field. -/
private def tmpl (field : String) : Tmpl Unit Unit :=
  ⟨[("template-resource".toList, "r".toList), ("id".toList, field.toList)],
   [("template-resource".toList, "r".toList), ("id".toList, field.toList)], (), ()⟩

/-- C35 is violated by an index or an attribute in a field name, and by a parameter in a format
specification: the rendering looks up a parameter that the resource has and that is not supplied. -/
theorem C35_lookups_violated (jinja : Str → Option (List Str)) :
    (∃ u, instantiateOne jinja (tmpl "x-{a[0]}") .job [(['a'], ['v'])] 1 = .ok u ∧
      u.data.lookup "id".toList = some "x-{a[0]}".toList ∧
      lookups 2 "x-{a[0]}".toList = some [['a']] ∧ u.params.lookup ['a'] = none) ∧
    (∃ u, instantiateOne jinja (tmpl "{a:{w}}") .job [(['a'], ['v']), (['w'], ['5'])] 1 = .ok u ∧
      u.data.lookup "id".toList = some "{a:{w}}".toList ∧
      lookups 2 "{a:{w}}".toList = some [['a'], ['w']] ∧ u.params.lookup ['w'] = none) := by
  constructor
  · refine ⟨⟨.job, targetData (tmpl "x-{a[0]}").data (tmpl "x-{a[0]}").data,
      .rawData (targetData (tmpl "x-{a[0]}").data (tmpl "x-{a[0]}").data), .origin (), .provider (),
      [("__index__".toList, .num 1)]⟩, ?_, ?_, ?_, ?_⟩
    · have : accessedAll jinja (engine (tmpl "x-{a[0]}").data)
          (targetData (tmpl "x-{a[0]}").data (tmpl "x-{a[0]}").data) = some ["a[0]".toList] := by
        have he : engine (tmpl "x-{a[0]}").data ≠ "jinja2".toList := by decide +kernel
        simp only [accessedAll, accessed, if_neg he]
        decide +kernel
      simp only [instantiateOne, this]
      rfl
    · rfl
    · decide +kernel
    · decide +kernel
  · refine ⟨⟨.job, targetData (tmpl "{a:{w}}").data (tmpl "{a:{w}}").data,
      .rawData (targetData (tmpl "{a:{w}}").data (tmpl "{a:{w}}").data), .origin (), .provider (),
      [(['a'], .str ['v']), ("__index__".toList, .num 1)]⟩, ?_, ?_, ?_, ?_⟩
    · have : accessedAll jinja (engine (tmpl "{a:{w}}").data)
          (targetData (tmpl "{a:{w}}").data (tmpl "{a:{w}}").data) = some [['a']] := by
        have he : engine (tmpl "{a:{w}}").data ≠ "jinja2".toList := by decide +kernel
        simp only [accessedAll, accessed, if_neg he]
        decide +kernel
      simp only [instantiateOne, this]
      rfl
    · rfl
    · decide +kernel
    · decide +kernel

/-- C35 is violated by the number: it is part of the content of a unit even when the template does
not mention it, so that the unit for a resource changes when an earlier resource disappears. -/
theorem C35_index_violated (jinja : Str → Option (List Str)) :
    let t := tmpl "x-{a}"
    let r1 : Res := [(['a'], ['1'])]
    let r2 : Res := [(['a'], ['2'])]
    ∃ u v w, instantiateAll jinja none t [r1, r2] = .ok [u, v] ∧
      instantiateAll jinja none t [r2] = .ok [w] ∧
      ¬ Mentioned jinja (engine t.data) v.data "__index__".toList ∧
      Checksum.canonical (v.unit none) ≠ Checksum.canonical (w.unit none) := by
  intro t r1 r2
  have hacc : accessedAll jinja (engine t.data) (targetData t.data t.data) = some [['a']] := by
    have he : engine t.data ≠ "jinja2".toList := by decide +kernel
    simp only [accessedAll, accessed, if_neg he]
    decide +kernel
  have hc : clsOf (templateUnit t.data) = some .job := by decide +kernel
  refine ⟨⟨.job, targetData t.data t.data, .rawData (targetData t.data t.rawData), .origin (),
      .provider (), paramsFor [['a']] r1 1⟩,
    ⟨.job, targetData t.data t.data, .rawData (targetData t.data t.rawData), .origin (),
      .provider (), paramsFor [['a']] r2 2⟩,
    ⟨.job, targetData t.data t.data, .rawData (targetData t.data t.rawData), .origin (),
      .provider (), paramsFor [['a']] r2 1⟩, ?_, ?_, ?_, ?_⟩
  · simp only [instantiateAll, hc, instLoop, shouldInstantiate, Except.bind, ↓reduceIte,
      instantiateOne, hacc, instantiateTemplate, Except.map]
  · simp only [instantiateAll, hc, instLoop, shouldInstantiate, Except.bind, ↓reduceIte,
      instantiateOne, hacc, instantiateTemplate, Except.map]
  · intro hm
    have := (mem_mapM hacc "__index__".toList).2 hm
    exact absurd this (by decide)
  · decide +kernel

/-- A template whose filter drops one of three resources: the hypotheses of `C35_succeeds` hold. -/
example (jinja : Str → Option (List Str)) :
    let t := tmpl "x-{a}"
    let f : Option (Res → FOut) := some fun r =>
      if r.lookup ['a'] = some ['2'] then .failed else .value true
    clsOf (templateUnit t.data) ∈ [some .unit, some .job, some .category, some .template] ∧
    accessedAll jinja (engine t.data) (targetData t.data t.data) ≠ none ∧
    (∀ g, f = some g → ∀ r ∈ [[(['a'], ['1'])], [(['a'], ['2'])], [(['a'], ['3'])]], g r ≠ .raised) := by
  intro t f
  refine ⟨by decide +kernel, ?_, ?_⟩
  · have he : engine t.data ≠ "jinja2".toList := by decide +kernel
    simp only [accessedAll, accessed, if_neg he]
    decide +kernel
  · intro g hg
    have : g = fun r => if r.lookup ['a'] = some ['2'] then .failed else .value true :=
      (Option.some.inj hg).symm
    subst this
    decide

/-! ## C54 -/

/-- C54: a unit of the classes `unit`, `job` and `category` made from a template has the template's
provider, its origin, and the raw data made from the template's raw data. -/
theorem C54_provider_partial {P O : Type} (jinja : Str → Option (List Str))
    (filter : Option (Res → FOut)) (t : Tmpl P O) (rs : List Res) (us : List (Inst P O))
    (hcls : clsOf (templateUnit t.data) ∈ [some .unit, some .job, some .category])
    (h : instantiateAll jinja filter t rs = .ok us) :
    ∀ u ∈ us, u.provider = .provider t.provider ∧ u.origin = .origin t.origin ∧
      ∃ d, u.rawData = .rawData d ∧ ∀ k, d.lookup k =
        if k = "unit".toList then some (templateUnit t.data)
        else if k = "template-engine".toList then some (engine t.data)
        else if ("template-".toList).isPrefixOf k then none
        else t.rawData.lookup k := by
  have hone : ∀ cls, clsOf (templateUnit t.data) = some cls → ∀ r i u,
      instantiateOne jinja t cls r i = .ok u →
      u.provider = .provider t.provider ∧ u.origin = .origin t.origin ∧
      u.rawData = .rawData (targetData t.data t.rawData) := by
    intro cls hc r i u hu
    rw [hc] at hcls
    unfold instantiateOne at hu
    split at hu
    · cases hu
    · simp only [List.mem_cons, Option.some.injEq, List.not_mem_nil, or_false] at hcls
      rcases hcls with rfl | rfl | rfl <;>
        · simp only [instantiateTemplate, Except.ok.injEq] at hu
          subst hu
          exact ⟨rfl, rfl, rfl⟩
  have hloop : ∀ cls, clsOf (templateUnit t.data) = some cls → ∀ (rs : List Res) n us,
      instLoop jinja filter t cls rs n = .ok us → ∀ u ∈ us,
      u.provider = .provider t.provider ∧ u.origin = .origin t.origin ∧
      u.rawData = .rawData (targetData t.data t.rawData) := by
    intro cls hc rs
    induction rs with
    | nil => intro n us hus; simp only [instLoop, Except.ok.injEq] at hus; subst hus; simp
    | cons r rs ih =>
      intro n us hus
      simp only [instLoop] at hus
      cases hs : shouldInstantiate filter r with
      | error x => rw [hs] at hus; cases hus
      | ok b =>
        rw [hs] at hus
        simp only [Except.bind] at hus
        split at hus
        · cases h1 : instantiateOne jinja t cls r (n + 1) with
          | error x => rw [h1] at hus; cases hus
          | ok u =>
            rw [h1] at hus
            simp only at hus
            cases h2 : instLoop jinja filter t cls rs (n + 1) with
            | error x => rw [h2] at hus; cases hus
            | ok us' =>
              rw [h2] at hus
              simp only [Except.map, Except.ok.injEq] at hus
              subst hus
              intro v hv
              rcases List.mem_cons.1 hv with rfl | hv
              · exact hone cls hc r _ _ h1
              · exact ih _ _ h2 v hv
        · exact ih _ _ hus
  unfold instantiateAll at h
  cases hc : clsOf (templateUnit t.data) with
  | none => rw [hc] at h; cases h
  | some cls =>
    rw [hc] at h
    intro u hu
    obtain ⟨h1, h2, h3⟩ := hloop cls hc rs 0 us h u hu
    exact ⟨h1, h2, _, h3, fun k => targetData_lookup _ _ k⟩

/-- A template for a class of units, with the id `x-{a}`. -/
private def tmplFor (cls : String) : Tmpl Unit Unit :=
  ⟨[("template-unit".toList, cls.toList), ("id".toList, "x-{a}".toList)],
   [("template-unit".toList, cls.toList), ("id".toList, "x-{a}".toList)], (), ()⟩

private theorem acc_for (jinja : Str → Option (List Str)) (cls : String)
    (h : parseFormat cls.toList = some []) :
    accessedAll jinja (engine (tmplFor cls).data)
      (targetData (tmplFor cls).data (tmplFor cls).data) = some [['a']] := by
  have he : engine (tmplFor cls).data = "default".toList := by
    simp only [engine, tmplFor]
    rfl
  have hu : templateUnit (tmplFor cls).data = cls.toList := by
    simp only [templateUnit, tmplFor]
    rfl
  have hd : targetData (tmplFor cls).data (tmplFor cls).data =
      [("id".toList, "x-{a}".toList), ("template-engine".toList, "default".toList),
       ("unit".toList, cls.toList)] := by
    unfold targetData
    rw [he, hu]
    rfl
  rw [he, hd]
  have hne : ¬ ("default".toList = "jinja2".toList) := by decide +kernel
  have p1 : parseFormat "x-{a}".toList = some [(['a'], [])] := by decide +kernel
  have p2 : parseFormat "default".toList = some [] := by decide +kernel
  simp only [accessedAll, accessed, if_neg hne, List.mapM_cons, p1, p2, h, Option.map_some,
    List.map_cons, List.map_nil]
  rfl

/-- C54 is violated for templates that make templates: the arguments of the initialiser are in the
wrong order, so that the origin ends up as the provider. -/
theorem C54_template_violated (jinja : Str → Option (List Str)) :
    ∃ u, instantiateAll jinja none (tmplFor "template") [[(['a'], ['1'])]] = .ok [u] ∧
      u.provider = .origin () := by
  have hc : clsOf (templateUnit (tmplFor "template").data) = some .template := by decide +kernel
  simp only [instantiateAll, hc, instLoop, shouldInstantiate, Except.bind, ↓reduceIte,
    instantiateOne, acc_for jinja "template" (by decide +kernel), instantiateTemplate, Except.map]
  exact ⟨_, rfl, rfl⟩

/-- C54 is violated for the remaining classes: instantiating a template for them raises
`AssertionError` as soon as a resource is accepted. -/
theorem C54_assertion_violated (jinja : Str → Option (List Str)) :
    ∀ c ∈ ["test plan", "manifest entry", "packaging meta-data", "exporter"],
      instantiateAll jinja none (tmplFor c) [[(['a'], ['1'])]] = .error .assertionError := by
  intro c hc
  have hp : parseFormat c.toList = some [] := by
    revert c; decide +kernel
  have hcl : ∃ k, clsOf (templateUnit (tmplFor c).data) = some k ∧
      k ∈ [Cls.testPlan, .manifestEntry, .packaging, .exporter] := by
    simp only [List.mem_cons, List.not_mem_nil, or_false] at hc
    rcases hc with rfl | rfl | rfl | rfl
    · exact ⟨.testPlan, by decide +kernel, by decide⟩
    · exact ⟨.manifestEntry, by decide +kernel, by decide⟩
    · exact ⟨.packaging, by decide +kernel, by decide⟩
    · exact ⟨.exporter, by decide +kernel, by decide⟩
  obtain ⟨k, hk, hm⟩ := hcl
  simp only [List.mem_cons, List.not_mem_nil, or_false] at hm
  simp only [instantiateAll, hk, instLoop, shouldInstantiate, Except.bind, ↓reduceIte,
    instantiateOne, acc_for jinja c hp]
  rcases hm with rfl | rfl | rfl | rfl <;> rfl

/-- C54, unknown classes: making units of a class that is not registered is refused, whatever the
resources; for a registered class there is no such refusal. -/
theorem C54_unknown {P O : Type} (jinja : Str → Option (List Str)) (filter : Option (Res → FOut))
    (t : Tmpl P O) (rs : List Res) :
    (templateUnit t.data ∉ (["unit", "job", "template", "category", "test plan", "manifest entry",
        "packaging meta-data", "exporter"] : List String).map String.toList →
      instantiateAll jinja filter t rs = .error .keyError) ∧
    (templateUnit t.data ∈ (["unit", "job", "template", "category", "test plan", "manifest entry",
        "packaging meta-data", "exporter"] : List String).map String.toList →
      instantiateAll jinja filter t [] = .ok []) := by
  unfold instantiateAll
  generalize templateUnit t.data = n
  constructor
  · intro h
    have : clsOf n = none := by
      unfold clsOf
      simp only [List.map_cons, List.map_nil, List.mem_cons, List.not_mem_nil, or_false, not_or] at h
      obtain ⟨h1, h2, h3, h4, h5, h6, h7, h8⟩ := h
      rw [if_neg h1, if_neg h2, if_neg h3, if_neg h4, if_neg h5, if_neg h6, if_neg h7, if_neg h8]
    rw [this]
  · intro h
    have : (clsOf n).isSome = true := by
      simp only [List.map_cons, List.map_nil, List.mem_cons, List.not_mem_nil, or_false] at h
      rcases h with h | h | h | h | h | h | h | h <;> subst h <;> decide +kernel
    obtain ⟨c, hc⟩ := Option.isSome_iff_exists.1 this
    rw [hc]
    rfl

example (jinja : Str → Option (List Str)) :
    instantiateAll jinja none (tmplFor "jobs") [[(['a'], ['1'])]] = .error .keyError :=
  (C54_unknown jinja none (tmplFor "jobs") _).1 (by decide +kernel)


end Verif.Template
