import Verif.Lemmas.Fields

/-! # Property C82: the fields of a unit read as they were written -/

set_option linter.unusedSimpArgs false

namespace Verif.Fields

open Verif.Text
open Verif.RFC822

/-! ## Specification -/

/-- A unit loaded from a record; parameters and template engine may be anything. -/
structure Loaded (r : Rec) (u : Unit') : Prop where
  data : u.data = (fromRecord r).data
  raw : u.raw = (fromRecord r).raw

/-- Two results of reading are the same, up to the kind of the exception. -/
def Agree {α : Type} : Except Exc α → Except Exc α → Prop
  | .ok a, .ok b => a = b
  | .error _, .error _ => True
  | _, _ => False

/-- Nothing is translated. -/
def Untranslated (env : Env) : Prop := (∀ m, env.translate m = m) ∧ ∀ l, env.label l = l

/-- Whether the newlines at the end of a text as written decide how it is cleaned up. -/
def Fragile (v : Str) : Prop := 1 < v.count '\n' ∧ (rstripNL v).count '\n' ≤ 1

/-- No text of a record that is marked for translation is fragile. -/
def Sturdy (r : Rec) : Prop := ∀ n v, ('_' :: n, v) ∈ r.fields → ¬ Fragile v

/-- The parts of a description under their headings. -/
def sections (label : Str → Str) (parts : List (Str × Option Str)) : Str :=
  (parts.map fun p =>
    match p.2 with
    | none => []
    | some v => label p.1 ++ ":\n".toList ++ v ++ "\n".toList).flatten

/-- A description: the field of this name, otherwise the parts that are there under their headings. -/
def describedBy (get : Str → Except Exc (Option Str)) (label : Str → Str) : Except Exc (Option Str) := do
  match ← get "description".toList with
  | some v => pure (some v)
  | none =>
    let purpose ← get "purpose".toList
    let steps ← get "steps".toList
    let verification ← get "verification".toList
    if purpose = none ∧ steps = none ∧ verification = none then pure none
    else pure (some (strip (sections label
      [("purpose".toList, purpose), ("steps".toList, steps), ("verification".toList, verification)])))

/-- The identifier of a job: `id`, otherwise `name`. -/
def identifier (env : Env) (u : Unit') : Except Exc (Option Str) := do
  getRecordValue env u "id".toList (← getRecordValue env u "name".toList none)

/-- The texts of a job: the identifier; `summary`, otherwise the identifier; the description. -/
def jobText (env : Env) (u : Unit') : Text → Except Exc (Option Str)
  | .partialId => identifier env u
  | .summary => do getRecordValue env u "summary".toList (← identifier env u)
  | .trSummary => do getTranslatedRecordValue env u "summary".toList (← identifier env u)
  | .description => describedBy (fun n => getRecordValue env u n none) upper
  | .trDescription => describedBy (fun n => getTranslatedRecordValue env u n none) (fun n => env.label (upper n))

/-- What is to be read when nothing is remembered. -/
def Query.fresh (env : Env) (u : Unit') : Query → Except Exc (Option Str)
  | .field f => f.read env u
  | .text t => jobText env u t

/-! ## What a field is -/

/-- Putting in the parameters: only units from templates have some, jinja2 always sees the text. -/
def putIn (env : Env) (u : Unit') (v : Str) : Except Exc Str :=
  match u.jinja2, u.parametric with
  | false, false => .ok v
  | false, true => env.format v
  | true, p => env.render p v

theorem fill_eq (env : Env) (u : Unit') (v : Str) : fill env u v = putIn env u v := by
  unfold fill putIn
  cases u.jinja2 <;> cases u.parametric <;> rfl

/-- Fields of a unit that comes from a record, and not from a template, can always be read, and have nothing filled in. -/
theorem C82_verbatim (r : Rec) (env : Env) (name : Str) (d : Option Str) :
    getRecordValue env (fromRecord r) name d = .ok ((r.data.lookup ('_' :: name)).or ((r.data.lookup name).or d)) := by
  unfold getRecordValue
  show (match (r.data.lookup ('_' :: name)).or ((r.data.lookup name).or d) with
    | none => _
    | some v => _) = _
  cases (r.data.lookup ('_' :: name)).or ((r.data.lookup name).or d) <;> rfl

/-- A field of a unit loaded from a record is the cleaned-up text written under its name, marked or not, with the
parameters put in; if both are there, the one marked for translation. -/
theorem C82_field (r : Rec) (u : Unit') (env : Env) (hu : Loaded r u) (name v : Str)
    (h : r.fields.lookup ('_' :: name) = some v ∨
      (r.fields.lookup ('_' :: name) = none ∧ r.fields.lookup name = some v)) (d : Option Str) :
    Agree (getRecordValue env u name d) ((putIn env u (normalize v)).map some) ∧
      getRawRecordValue env u name d = (putIn env u (rstripNL v)).map some := by
  simp only [← fill_eq]
  have h1 : (u.data.lookup ('_' :: name)).or ((u.data.lookup name).or d) = some (normalize v) := by
    rw [hu.data]
    show ((r.fields.map fun f => (f.1, normalize f.2)).lookup _).or
      (((r.fields.map fun f => (f.1, normalize f.2)).lookup _).or d) = _
    rw [lookup_map_snd, lookup_map_snd]
    rcases h with h | ⟨h, h'⟩
    · rw [h]; rfl
    · rw [h, h']; rfl
  have h2 : (u.raw.lookup ('_' :: name)).or ((u.raw.lookup name).or d) = some (rstripNL v) := by
    rw [hu.raw]
    show ((r.fields.map fun f => (f.1, rstripNL f.2)).lookup _).or
      (((r.fields.map fun f => (f.1, rstripNL f.2)).lookup _).or d) = _
    rw [lookup_map_snd, lookup_map_snd]
    rcases h with h | ⟨h, h'⟩
    · rw [h]; rfl
    · rw [h, h']; rfl
  constructor
  · unfold getRecordValue
    rw [h1]
    dsimp only
    cases fill env u (normalize v) with
    | ok t => rfl
    | error e => cases e <;> exact True.intro
  · unfold getRawRecordValue
    rw [h2]

/-- A field that is not there reads as the given default, with parameters put into it as well; without one, as
nothing. -/
theorem C82_absent (r : Rec) (u : Unit') (env : Env) (hu : Loaded r u) (name : Str)
    (h : r.fields.lookup ('_' :: name) = none) (h' : r.fields.lookup name = none) :
    getRecordValue env u name none = .ok none ∧ getRawRecordValue env u name none = .ok none ∧
      getTranslatedRecordValue env u name none = .ok none ∧
      ∀ d, getTranslatedRecordValue env u name (some d) = .ok (some d) ∧
        Agree (getRecordValue env u name (some d)) ((putIn env u d).map some) := by
  simp only [← fill_eq]
  have hd : ∀ n, u.data.lookup n = (r.fields.lookup n).map normalize := fun n => by
    rw [hu.data]; exact lookup_map_snd _ _ _
  have hr : ∀ n, u.raw.lookup n = (r.fields.lookup n).map rstripNL := fun n => by
    rw [hu.raw]; exact lookup_map_snd _ _ _
  refine ⟨?_, ?_, ?_, fun d => ⟨?_, ?_⟩⟩
  · unfold getRecordValue
    rw [hd, hd, h, h']; rfl
  · unfold getRawRecordValue
    rw [hr, hr, h, h']; rfl
  · unfold getTranslatedRecordValue
    rw [hr, hd, h, h']; rfl
  · unfold getTranslatedRecordValue
    rw [hr, hd, h, h']; rfl
  · unfold getRecordValue
    rw [hd, hd, h, h']
    simp only [Option.map_none, Option.none_or]
    cases fill env u d with
    | ok t => rfl
    | error e => cases e <;> exact True.intro

/-- Marking a field for translation changes no field, neither its value nor its raw value. -/
theorem C82_marked (pre post : List (Str × Str)) (n v : Str) (hn : n.head? ≠ some '_')
    (h1 : (pre ++ post).lookup n = none) (h2 : (pre ++ post).lookup ('_' :: n) = none)
    (r r' : Rec) (hr : r.fields = pre ++ (n, v) :: post) (hr' : r'.fields = pre ++ ('_' :: n, v) :: post)
    (u u' : Unit') (hu : Loaded r u) (hu' : Loaded r' u') (hp : u'.parametric = u.parametric)
    (he : u'.jinja2 = u.jinja2) (env : Env) (m : Str) (hm : m ≠ '_' :: n) (d : Option Str) :
    getRecordValue env u' m d = getRecordValue env u m d ∧
      getRawRecordValue env u' m d = getRawRecordValue env u m d := by
  have key : (r'.fields.lookup ('_' :: m)).or (r'.fields.lookup m) =
      (r.fields.lookup ('_' :: m)).or (r.fields.lookup m) := by
    rw [hr, hr']
    rw [lookup_append] at h1 h2
    have hmn : ('_' :: m == n) = false := by
      rw [beq_eq_false_iff_ne]
      intro h
      rw [← h] at hn
      exact hn rfl
    have hm' : (m == '_' :: n) = false := by rw [beq_eq_false_iff_ne]; exact hm
    simp only [lookup_append, List.lookup_cons, hmn, hm']
    by_cases hx : m = n
    · subst hx
      have e1 : ('_' :: m == '_' :: m) = true := beq_self_eq_true _
      have e2 : (m == m) = true := beq_self_eq_true _
      rw [e1, e2]
      have a1 : pre.lookup m = none := (Option.or_eq_none_iff.1 h1).1
      have a2 : pre.lookup ('_' :: m) = none := (Option.or_eq_none_iff.1 h2).1
      have a3 : post.lookup ('_' :: m) = none := (Option.or_eq_none_iff.1 h2).2
      rw [a1, a2, a3]
      rfl
    · have e1 : ('_' :: m == '_' :: n) = false := by
        rw [beq_eq_false_iff_ne]
        intro h
        exact hx (List.cons.inj h).2
      have e2 : (m == n) = false := by rw [beq_eq_false_iff_ne]; exact hx
      rw [e1, e2]
  have hfill : ∀ t, fill env u' t = fill env u t := by
    intro t
    unfold fill
    rw [hp, he]
  have both : ∀ (f : Str → Str), ((r'.fields.map fun x => (x.1, f x.2)).lookup ('_' :: m)).or
      (((r'.fields.map fun x => (x.1, f x.2)).lookup m).or d) =
      ((r.fields.map fun x => (x.1, f x.2)).lookup ('_' :: m)).or
      (((r.fields.map fun x => (x.1, f x.2)).lookup m).or d) := by
    intro f
    rw [← Option.or_assoc, ← Option.or_assoc]
    congr 1
    simp only [lookup_map_snd]
    have hmap : ∀ a b : Option Str, (a.map f).or (b.map f) = (a.or b).map f := by
      intro a b; cases a <;> rfl
    rw [hmap, hmap, key]
  constructor
  · unfold getRecordValue
    rw [hu.data, hu'.data, hp, he]
    show (match ((r'.fields.map fun x => (x.1, normalize x.2)).lookup ('_' :: m)).or
      (((r'.fields.map fun x => (x.1, normalize x.2)).lookup m).or d) with | none => _ | some v => _) = _
    rw [both]
    simp only [hfill]
    rfl
  · unfold getRawRecordValue
    rw [hu.raw, hu'.raw]
    show (match ((r'.fields.map fun x => (x.1, rstripNL x.2)).lookup ('_' :: m)).or
      (((r'.fields.map fun x => (x.1, rstripNL x.2)).lookup m).or d) with | none => _ | some v => _) = _
    rw [both]
    simp only [hfill]
    rfl

/-- A field that is not marked is never translated: without a marked twin, the translated value is the value,
whatever the translations. -/
theorem C82_unmarked (r : Rec) (u : Unit') (env : Env) (hu : Loaded r u) (name : Str)
    (h : r.fields.lookup ('_' :: name) = none) :
    Agree (getTranslatedRecordValue env u name none) (getRecordValue env u name none) := by
  have hd : ∀ n, u.data.lookup n = (r.fields.lookup n).map normalize := fun n => by
    rw [hu.data]; exact lookup_map_snd _ _ _
  have hr : ∀ n, u.raw.lookup n = (r.fields.lookup n).map rstripNL := fun n => by
    rw [hu.raw]; exact lookup_map_snd _ _ _
  unfold getTranslatedRecordValue getRecordValue
  rw [hr, hd, hd, h]
  cases r.fields.lookup name with
  | none => rfl
  | some v =>
    simp only [Option.map_none, Option.map_some, Option.none_or, Option.some_or]
    cases fill env u (normalize v) with
    | ok t => rfl
    | error e => cases e <;> exact True.intro

/-- A field that is marked reads as its cleaned-up translation with the parameters put in; what is looked up is
the text as written without the newlines at its end. -/
theorem C82_translated (r : Rec) (u : Unit') (env : Env) (hu : Loaded r u) (name v : Str)
    (h : r.fields.lookup ('_' :: name) = some v) (d : Option Str) :
    getTranslatedRecordValue env u name d =
      (putIn env u (normalize (env.translate (rstripNL v)))).map some := by
  rw [← fill_eq]
  unfold getTranslatedRecordValue
  rw [hu.raw]
  show (match (r.fields.map fun f => (f.1, rstripNL f.2)).lookup _ with | some _ => _ | none => _) = _
  rw [lookup_map_snd, h]
  rfl

private theorem lookup_mem {α β : Type} [BEq α] [LawfulBEq α] {l : List (α × β)} {a : α} {b : β} (h : l.lookup a = some b) : (a, b) ∈ l := by
  induction l with
  | nil => simp at h
  | cons x l ih =>
    obtain ⟨k, v⟩ := x
    rw [List.lookup_cons] at h
    cases hk : a == k with
    | true =>
      rw [hk] at h
      rw [eq_of_beq hk]
      cases h
      exact List.mem_cons_self
    | false =>
      rw [hk] at h
      exact List.mem_cons_of_mem _ (ih h)

/-- Without translations the translated value of a field is its value.  The part that holds: unless the newlines
at the end of the text decide how it is cleaned up. -/
theorem C82_untranslated_partial (r : Rec) (u : Unit') (env : Env) (hu : Loaded r u) (he : Untranslated env)
    (hs : Sturdy r) (name : Str) :
    Agree (getTranslatedRecordValue env u name none) (getRecordValue env u name none) := by
  cases h : r.fields.lookup ('_' :: name) with
  | none => exact C82_unmarked r u env hu name h
  | some v =>
    rw [C82_translated r u env hu name v h, he.1, normalize_rstripNL (hs name v (lookup_mem h))]
    have := (C82_field r u env hu name v (.inl h) none).1
    revert this
    cases getRecordValue env u name none <;> cases (putIn env u (normalize v)).map some <;> simp [Agree, eq_comm]

/-! ## Remembering -/

/-- What is remembered is what would be read. -/
structure Right (env : Env) (u : Unit') (m : Memo) : Prop where
  fields : ∀ f v, m.fields.lookup f = some v → f.read env u = .ok v
  texts : ∀ t v, m.texts.lookup t = some v → jobText env u t = .ok v

/-- Something that is read through the memory is what would be read without it. -/
def Sound {α : Type} (env : Env) (u : Unit') (g : Memo → Except Exc α × Memo) (p : Except Exc α) : Prop :=
  ∀ m, Right env u m → (g m).1 = p ∧ Right env u (g m).2

theorem sound_field (env : Env) (u : Unit') (f : Field) : Sound env u (askField env u f) (f.read env u) := by
  intro m hm
  unfold askField
  cases h : m.fields.lookup f with
  | some v => exact ⟨(hm.fields f v h).symm, hm⟩
  | none =>
    cases hr : f.read env u with
    | error e => exact ⟨rfl, hm⟩
    | ok v =>
      refine ⟨rfl, ⟨fun g w hg => ?_, hm.texts⟩⟩
      rw [List.lookup_cons] at hg
      cases hk : g == f with
      | true =>
        rw [hk] at hg
        cases hg
        rw [eq_of_beq hk]
        exact hr
      | false =>
        rw [hk] at hg
        exact hm.fields g w hg

theorem sound_keep {env : Env} {u : Unit'} {t : Text} {g : Memo → Except Exc (Option Str) × Memo}
    (h : Sound env u g (jobText env u t)) : Sound env u (fun m => keep t (g m)) (jobText env u t) := by
  intro m hm
  obtain ⟨h1, h2⟩ := h m hm
  show (keep t (g m)).1 = _ ∧ Right env u (keep t (g m)).2
  generalize g m = x at h1 h2
  obtain ⟨a, m'⟩ := x
  cases a with
  | error e => exact ⟨h1, h2⟩
  | ok v =>
    refine ⟨h1, ⟨h2.fields, fun t' w hw => ?_⟩⟩
    change List.lookup t' ((t, v) :: m'.texts) = _ at hw
    rw [List.lookup_cons] at hw
    cases hk : t' == t with
    | true =>
      rw [hk] at hw
      cases hw
      rw [eq_of_beq hk]
      exact h1.symm
    | false =>
      rw [hk] at hw
      exact h2.texts t' w hw

theorem sound_partialId (env : Env) (u : Unit') (pid : Memo → Except Exc (Option Str) × Memo) :
    Sound env u (Text.compute env (askField env u) pid .partialId) (jobText env u .partialId) := by
  intro m hm
  have h1 := sound_field env u ⟨.value, "name".toList, none⟩ m hm
  unfold Text.compute
  show _ = identifier env u ∧ _
  unfold identifier
  dsimp only
  revert h1
  generalize askField env u ⟨.value, "name".toList, none⟩ m = x
  obtain ⟨a, m'⟩ := x
  rintro ⟨h1, h2⟩
  change a = getRecordValue env u _ none at h1
  rw [← h1]
  cases a with
  | error e => exact ⟨rfl, h2⟩
  | ok d => exact sound_field env u ⟨.value, "id".toList, d⟩ m' h2

theorem sound_askPartialId (env : Env) (u : Unit') : Sound env u (askPartialId env u) (jobText env u .partialId) := by
  intro m hm
  unfold askPartialId
  cases h : m.texts.lookup .partialId with
  | some v => exact ⟨(hm.texts _ v h).symm, hm⟩
  | none => exact sound_keep (sound_partialId env u _) m hm

/-- The loop over the parts of a description. -/
theorem sound_combine {env : Env} {u : Unit'} {get : Str → Memo → Except Exc (Option Str) × Memo}
    {p : Str → Except Exc (Option Str)} (h : ∀ n, Sound env u (get n) (p n)) (label : Str → Str) (l : List Str) :
    ∀ acc, Sound env u (combine get label l acc)
      ((l.mapM p).map fun vs => acc ++ sections label (l.zip vs)) := by
  induction l with
  | nil =>
    intro acc m hm
    refine ⟨?_, hm⟩
    show Except.ok acc = Except.ok (acc ++ _)
    simp [sections]
  | cons n l ih =>
    intro acc m hm
    obtain ⟨h1, h2⟩ := h n m hm
    rw [List.mapM_cons]
    unfold combine
    revert h1 h2
    generalize get n m = x
    obtain ⟨a, m'⟩ := x
    intro h1 h2
    change a = p n at h1
    rw [← h1]
    cases a with
    | error e => exact ⟨rfl, h2⟩
    | ok o =>
      cases o with
      | none =>
        obtain ⟨h3, h4⟩ := ih acc m' h2
        refine ⟨?_, h4⟩
        dsimp only
        rw [h3]
        show _ = Except.map _ (Except.bind (l.mapM p) _)
        cases l.mapM p with
        | error e => rfl
        | ok vs => rfl
      | some v =>
        obtain ⟨h3, h4⟩ := ih (acc ++ label n ++ ":\n".toList ++ v ++ "\n".toList) m' h2
        refine ⟨?_, h4⟩
        dsimp only
        rw [h3]
        show _ = Except.map _ (Except.bind (l.mapM p) _)
        cases l.mapM p with
        | error e => rfl
        | ok vs =>
          show Except.ok _ = Except.ok _
          simp [sections, List.append_assoc]

/-- The text of the parts is blank only if there is none. -/
theorem sections_blank (label : Str → Str) (parts : List (Str × Option Str)) :
    strip (sections label parts) = [] ↔ ∀ p ∈ parts, p.2 = none := by
  rw [strip_eq_nil]
  constructor
  · intro h p hp
    cases hv : p.2 with
    | none => rfl
    | some v =>
      have : ':' ∈ sections label parts := by
        unfold sections
        rw [List.mem_flatten]
        refine ⟨label p.1 ++ ":\n".toList ++ v ++ "\n".toList, ?_, ?_⟩
        · rw [List.mem_map]
          exact ⟨p, hp, by rw [hv]⟩
        · have : ':' ∈ ":\n".toList := by decide
          simp only [List.mem_append]
          exact .inl (.inl (.inr this))
      have := h _ this
      exact absurd this (by decide)
  · intro h c hc
    unfold sections at hc
    rw [List.mem_flatten] at hc
    obtain ⟨l, hl, hc⟩ := hc
    rw [List.mem_map] at hl
    obtain ⟨p, hp, rfl⟩ := hl
    rw [h p hp] at hc
    simp at hc

theorem sound_described {env : Env} {u : Unit'} {get : Str → Memo → Except Exc (Option Str) × Memo}
    {p : Str → Except Exc (Option Str)} (h : ∀ n, Sound env u (get n) (p n)) (label : Str → Str) :
    Sound env u (Text.compute.described get label) (describedBy p label) := by
  intro m hm
  obtain ⟨h1, h2⟩ := h "description".toList m hm
  unfold Text.compute.described describedBy
  revert h1 h2
  generalize get "description".toList m = x
  obtain ⟨a, m'⟩ := x
  intro h1 h2
  change a = p _ at h1
  rw [← h1]
  cases a with
  | error e => exact ⟨rfl, h2⟩
  | ok o =>
    cases o with
    | some v => exact ⟨rfl, h2⟩
    | none =>
      obtain ⟨h3, h4⟩ := sound_combine h label stages [] m' h2
      revert h3 h4
      dsimp only
      generalize combine get label stages [] m' = y
      obtain ⟨b, m''⟩ := y
      intro h3 h4
      have hb : b = (stages.mapM p).map fun vs => [] ++ sections label (stages.zip vs) := h3
      have hst : stages.mapM p = (do
          let a ← p "purpose".toList
          let b ← p "steps".toList
          let c ← p "verification".toList
          pure [a, b, c]) := by
        unfold stages
        rw [List.mapM_cons, List.mapM_cons, List.mapM_cons, List.mapM_nil]
        cases p "purpose".toList <;> cases p "steps".toList <;> cases p "verification".toList <;> rfl
      rw [hst] at hb
      show _ = (do
        let purpose ← p "purpose".toList
        let steps ← p "steps".toList
        let verification ← p "verification".toList
        if purpose = none ∧ steps = none ∧ verification = none then pure none
        else pure (some (strip (sections label
          [("purpose".toList, purpose), ("steps".toList, steps), ("verification".toList, verification)])))) ∧ _
      cases h5 : p "purpose".toList with
      | error e => rw [h5] at hb; subst hb; exact ⟨rfl, h4⟩
      | ok a =>
        cases h6 : p "steps".toList with
        | error e => rw [h5, h6] at hb; subst hb; exact ⟨rfl, h4⟩
        | ok b' =>
          cases h7 : p "verification".toList with
          | error e => rw [h5, h6, h7] at hb; subst hb; exact ⟨rfl, h4⟩
          | ok c =>
            rw [h5, h6, h7] at hb
            subst hb
            refine ⟨?_, h4⟩
            show Except.ok (if strip (sections label [("purpose".toList, a), ("steps".toList, b'),
              ("verification".toList, c)]) = [] then none else some _) = (if _ then Except.ok none else Except.ok _)
            have := sections_blank label [("purpose".toList, a), ("steps".toList, b'), ("verification".toList, c)]
            simp only [List.mem_cons, List.not_mem_nil, or_false, forall_eq_or_imp, forall_eq] at this
            by_cases hn : a = none ∧ b' = none ∧ c = none
            · rw [if_pos hn, if_pos (this.2 hn)]
            · rw [if_neg hn, if_neg (fun h => hn (this.1 h))]
              rfl

theorem sound_text (env : Env) (u : Unit') (t : Text) : Sound env u (askText env u t) (jobText env u t) := by
  intro m hm
  unfold askText
  cases h : m.texts.lookup t with
  | some v => exact ⟨(hm.texts _ v h).symm, hm⟩
  | none =>
    cases t with
    | partialId => exact sound_askPartialId env u m hm
    | description => exact sound_keep (sound_described (fun n => sound_field env u ⟨.value, n, none⟩) upper) m hm
    | trDescription =>
      exact sound_keep (t := .trDescription) (sound_described (fun n => sound_field env u ⟨.translated, n, none⟩) _) m hm
    | summary =>
      refine sound_keep (t := .summary) (g := Text.compute env (askField env u) (askPartialId env u) .summary)
        (fun m hm => ?_) m hm
      obtain ⟨h1, h2⟩ := sound_askPartialId env u m hm
      unfold Text.compute
      dsimp only
      revert h1 h2
      generalize askPartialId env u m = x
      obtain ⟨a, m'⟩ := x
      intro h1 h2
      change a = identifier env u at h1
      show _ = (identifier env u >>= fun d => getRecordValue env u _ d) ∧ _
      rw [← h1]
      cases a with
      | error e => exact ⟨rfl, h2⟩
      | ok d => exact sound_field env u ⟨.value, "summary".toList, d⟩ m' h2
    | trSummary =>
      refine sound_keep (t := .trSummary) (g := Text.compute env (askField env u) (askPartialId env u) .trSummary)
        (fun m hm => ?_) m hm
      obtain ⟨h1, h2⟩ := sound_askPartialId env u m hm
      unfold Text.compute
      dsimp only
      revert h1 h2
      generalize askPartialId env u m = x
      obtain ⟨a, m'⟩ := x
      intro h1 h2
      change a = identifier env u at h1
      show _ = (identifier env u >>= fun d => getTranslatedRecordValue env u _ d) ∧ _
      rw [← h1]
      cases a with
      | error e => exact ⟨rfl, h2⟩
      | ok d => exact sound_field env u ⟨.translated, "summary".toList, d⟩ m' h2

/-- Whatever is read, in whatever order and however often, is what would be read if nothing was remembered, as long
as nothing changes outside.  In particular the texts of a job are put together as `jobText` says. -/
theorem C82_remembered (env : Env) (u : Unit') (qs : List Query) :
    askAll u (qs.map fun q => (env, q)) ⟨[], []⟩ = qs.map fun q => q.fresh env u := by
  have : ∀ (qs : List Query) (m : Memo), Right env u m →
      askAll u (qs.map fun q => (env, q)) m = qs.map fun q => q.fresh env u := by
    intro qs
    induction qs with
    | nil => intro m _; rfl
    | cons q qs ih =>
      intro m hm
      have hq : (ask env u m q).1 = q.fresh env u ∧ Right env u (ask env u m q).2 := by
        cases q with
        | field f => exact sound_field env u f m hm
        | text t => exact sound_text env u t m hm
      show (ask env u m q).1 :: askAll u _ (ask env u m q).2 = _
      rw [hq.1, ih _ hq.2]
      rfl
  exact this qs _ ⟨fun _ _ h => by simp at h, fun _ _ h => by simp at h⟩

/-- Nothing that was remembered is forgotten or changed. -/
structure Grows (m m' : Memo) : Prop where
  fields : ∀ f v, m.fields.lookup f = some v → m'.fields.lookup f = some v
  texts : ∀ t v, m.texts.lookup t = some v → m'.texts.lookup t = some v

theorem Grows.refl (m : Memo) : Grows m m := ⟨fun _ _ h => h, fun _ _ h => h⟩

theorem Grows.trans {a b c : Memo} (h : Grows a b) (h' : Grows b c) : Grows a c :=
  ⟨fun f v hv => h'.fields f v (h.fields f v hv), fun t v hv => h'.texts t v (h.texts t v hv)⟩

/-- Reading does not forget, and of the texts remembers at most the identifier. -/
structure Mild (m m' : Memo) : Prop extends Grows m m' where
  only : ∀ t, t ≠ .partialId → m'.texts.lookup t = m.texts.lookup t

theorem Mild.refl (m : Memo) : Mild m m := ⟨.refl m, fun _ _ => rfl⟩

theorem Mild.trans {a b c : Memo} (h : Mild a b) (h' : Mild b c) : Mild a c :=
  ⟨h.toGrows.trans h'.toGrows, fun t ht => (h'.only t ht).trans (h.only t ht)⟩

theorem askField_texts (env : Env) (u : Unit') (f : Field) (m : Memo) :
    (askField env u f m).2.texts = m.texts := by
  unfold askField
  cases m.fields.lookup f with
  | some v => rfl
  | none => cases f.read env u <;> rfl

theorem lookup_cons_keep {α β : Type} [BEq α] [LawfulBEq α] {l : List (α × β)} {a b : α} {x y : β} (h : l.lookup a = none)
    (hb : l.lookup b = some y) : ((a, x) :: l).lookup b = some y := by
  rw [List.lookup_cons]
  cases hk : b == a with
  | true => rw [eq_of_beq hk, h] at hb; cases hb
  | false => exact hb

theorem askField_mild (env : Env) (u : Unit') (f : Field) (m : Memo) : Mild m (askField env u f m).2 := by
  refine ⟨⟨?_, fun t v h => ?_⟩, fun t _ => ?_⟩
  · unfold askField
    cases h : m.fields.lookup f with
    | some v => exact fun _ _ h => h
    | none =>
      cases f.read env u with
      | error e => exact fun _ _ h => h
      | ok v => exact fun g w hg => lookup_cons_keep h hg
  · rw [askField_texts]; exact h
  · rw [askField_texts]

theorem askField_kept {env : Env} {u : Unit'} {f : Field} {m : Memo} {v : Option Str}
    (h : (askField env u f m).1 = .ok v) : (askField env u f m).2.fields.lookup f = some v := by
  unfold askField at h ⊢
  cases hl : m.fields.lookup f with
  | some w => rw [hl] at h; cases h; exact hl
  | none =>
    rw [hl] at h
    cases hr : f.read env u with
    | error e => rw [hr] at h; cases h
    | ok w =>
      rw [hr] at h
      cases h
      exact List.lookup_cons_self

theorem keep_kept {t : Text} {x : Except Exc (Option Str) × Memo} {v : Option Str} (h : (keep t x).1 = .ok v) :
    (keep t x).2.texts.lookup t = some v := by
  obtain ⟨a, m⟩ := x
  cases a with
  | error e => cases h
  | ok w => cases h; exact List.lookup_cons_self

theorem keep_grows {t : Text} {x : Except Exc (Option Str) × Memo} (h : x.2.texts.lookup t = none) :
    Grows x.2 (keep t x).2 := by
  obtain ⟨a, m⟩ := x
  cases a with
  | error e => exact .refl _
  | ok w => exact ⟨fun _ _ h => h, fun t' v hv => lookup_cons_keep h hv⟩

theorem compute_partialId (env : Env) (u : Unit') (pid : Memo → Except Exc (Option Str) × Memo) (m : Memo) :
    Mild m (Text.compute env (askField env u) pid .partialId m).2 ∧
      (Text.compute env (askField env u) pid .partialId m).2.texts = m.texts := by
  have h1 := askField_mild env u ⟨.value, "name".toList, none⟩ m
  have h2 := askField_texts env u ⟨.value, "name".toList, none⟩ m
  unfold Text.compute
  dsimp only
  revert h1 h2
  generalize askField env u ⟨.value, "name".toList, none⟩ m = x
  obtain ⟨a, m'⟩ := x
  intro h1 h2
  cases a with
  | error e => exact ⟨h1, h2⟩
  | ok d => exact ⟨h1.trans (askField_mild _ _ _ _), (askField_texts _ _ _ _).trans h2⟩

theorem askPartialId_mild (env : Env) (u : Unit') (m : Memo) : Mild m (askPartialId env u m).2 := by
  unfold askPartialId
  cases h : m.texts.lookup .partialId with
  | some v => exact .refl m
  | none =>
    obtain ⟨h1, h2⟩ := compute_partialId env u (fun m => (.ok none, m)) m
    dsimp only
    revert h1 h2
    generalize Text.compute env (askField env u) (fun m => (.ok none, m)) .partialId m = x
    intro h1 h2
    refine ⟨h1.toGrows.trans (keep_grows (h2 ▸ h)), fun t ht => ?_⟩
    have : (keep .partialId x).2.texts.lookup t = x.2.texts.lookup t := by
      obtain ⟨a, m'⟩ := x
      cases a with
      | error e => rfl
      | ok v =>
        show List.lookup t ((Text.partialId, v) :: m'.texts) = _
        rw [List.lookup_cons]
        have : (t == Text.partialId) = false := by rw [beq_eq_false_iff_ne]; exact ht
        rw [this]
    rw [this, h2]

theorem askPartialId_kept {env : Env} {u : Unit'} {m : Memo} {v : Option Str}
    (h : (askPartialId env u m).1 = .ok v) : (askPartialId env u m).2.texts.lookup .partialId = some v := by
  unfold askPartialId at h ⊢
  cases hl : m.texts.lookup .partialId with
  | some w => rw [hl] at h; cases h; exact hl
  | none => rw [hl] at h; exact keep_kept h

theorem combine_mild {get : Str → Memo → Except Exc (Option Str) × Memo} (h : ∀ n m, Mild m (get n m).2)
    (label : Str → Str) (l : List Str) : ∀ acc m, Mild m (combine get label l acc m).2 := by
  induction l with
  | nil => intro acc m; exact .refl m
  | cons n l ih =>
    intro acc m
    have h1 := h n m
    unfold combine
    revert h1
    generalize get n m = x
    obtain ⟨a, m'⟩ := x
    intro h1
    cases a with
    | error e => exact h1
    | ok o =>
      cases o with
      | none => exact h1.trans (ih _ _)
      | some v => exact h1.trans (ih _ _)

theorem described_mild {get : Str → Memo → Except Exc (Option Str) × Memo} (h : ∀ n m, Mild m (get n m).2)
    (label : Str → Str) (m : Memo) : Mild m (Text.compute.described get label m).2 := by
  have h1 := h "description".toList m
  unfold Text.compute.described
  revert h1
  generalize get "description".toList m = x
  obtain ⟨a, m'⟩ := x
  intro h1
  cases a with
  | error e => exact h1
  | ok o =>
    cases o with
    | some v => exact h1
    | none =>
      have h2 := combine_mild h label stages [] m'
      dsimp only
      revert h2
      generalize combine get label stages [] m' = y
      obtain ⟨b, m''⟩ := y
      intro h2
      cases b with
      | error e => exact h1.trans h2
      | ok t => exact h1.trans h2

theorem compute_mild (env : Env) (u : Unit') (t : Text) (m : Memo) :
    Mild m (Text.compute env (askField env u) (askPartialId env u) t m).2 := by
  cases t with
  | partialId => exact (compute_partialId env u _ m).1
  | description => exact described_mild (fun n m => askField_mild env u _ m) _ m
  | trDescription => exact described_mild (fun n m => askField_mild env u _ m) _ m
  | summary =>
    have h1 := askPartialId_mild env u m
    unfold Text.compute
    dsimp only
    revert h1
    generalize askPartialId env u m = x
    obtain ⟨a, m'⟩ := x
    intro h1
    cases a with
    | error e => exact h1
    | ok d => exact h1.trans (askField_mild _ _ _ _)
  | trSummary =>
    have h1 := askPartialId_mild env u m
    unfold Text.compute
    dsimp only
    revert h1
    generalize askPartialId env u m = x
    obtain ⟨a, m'⟩ := x
    intro h1
    cases a with
    | error e => exact h1
    | ok d => exact h1.trans (askField_mild _ _ _ _)

/-- Whether an answer is remembered. -/
def Query.kept (m : Memo) : Query → Option (Option Str)
  | .field f => m.fields.lookup f
  | .text t => m.texts.lookup t

theorem ask_grows (env : Env) (u : Unit') (m : Memo) (q : Query) : Grows m (ask env u m q).2 := by
  cases q with
  | field f => exact (askField_mild env u f m).toGrows
  | text t =>
    show Grows m (askText env u t m).2
    unfold askText
    cases h : m.texts.lookup t with
    | some v => exact .refl m
    | none =>
      have hg : ∀ t, m.texts.lookup t = none → t ≠ .partialId →
          Grows m (keep t (Text.compute env (askField env u) (askPartialId env u) t m)).2 := by
        intro t h ht
        have hm := compute_mild env u t m
        exact hm.toGrows.trans (keep_grows ((hm.only t ht).trans h))
      cases t with
      | partialId => exact (askPartialId_mild env u m).toGrows
      | _ => exact hg _ h (by decide)

theorem ask_kept {env : Env} {u : Unit'} {m : Memo} {q : Query} {v : Option Str} (h : (ask env u m q).1 = .ok v) :
    q.kept (ask env u m q).2 = some v := by
  cases q with
  | field f => exact askField_kept h
  | text t =>
    change (askText env u t m).1 = .ok v at h
    show (askText env u t m).2.texts.lookup t = some v
    unfold askText at h ⊢
    cases hl : m.texts.lookup t with
    | some w => rw [hl] at h; cases h; exact hl
    | none =>
      rw [hl] at h
      cases t with
      | partialId => exact askPartialId_kept h
      | _ => exact keep_kept h

theorem ask_again {env : Env} {u : Unit'} {m : Memo} {q : Query} {v : Option Str} (h : q.kept m = some v) :
    ask env u m q = (.ok v, m) := by
  cases q with
  | field f =>
    show askField env u f m = _
    unfold askField
    rw [show m.fields.lookup f = some v from h]
  | text t =>
    show askText env u t m = _
    unfold askText
    rw [show m.texts.lookup t = some v from h]

theorem kept_grows {m m' : Memo} (h : Grows m m') {q : Query} {v : Option Str} (hk : q.kept m = some v) :
    q.kept m' = some v := by
  cases q with
  | field f => exact h.fields f v hk
  | text t => exact h.texts t v hk

/-- What was read once reads the same for ever, whatever changes outside in between: the language, the environment
of the process. -/
theorem C82_stable (u : Unit') (m : Memo) (l : List (Env × Query)) (i j : Nat) (hij : i ≤ j) (env env' : Env) (q : Query)
    (v : Option Str) (hi : l[i]? = some (env, q)) (hj : l[j]? = some (env', q))
    (h : (askAll u l m)[i]? = some (.ok v)) : (askAll u l m)[j]? = some (.ok v) := by
  have later : ∀ (l : List (Env × Query)) (m : Memo) (j : Nat), q.kept m = some v → l[j]? = some (env', q) →
      (askAll u l m)[j]? = some (.ok v) := by
    intro l
    induction l with
    | nil => intro m j _ hj; simp at hj
    | cons x l ih =>
      intro m j hk hj
      obtain ⟨e, q'⟩ := x
      cases j with
      | zero =>
        simp only [List.getElem?_cons_zero, Option.some.injEq, Prod.mk.injEq] at hj
        obtain ⟨rfl, rfl⟩ := hj
        show ((ask e u m q').1 :: _)[0]? = _
        rw [ask_again hk]
        rfl
      | succ j =>
        simp only [List.getElem?_cons_succ] at hj
        show (_ :: askAll u l _)[j + 1]? = _
        rw [List.getElem?_cons_succ]
        exact ih _ j (kept_grows (ask_grows e u m q') hk) hj
  induction l generalizing m i j with
  | nil => simp at hi
  | cons x l ih =>
    obtain ⟨e, q'⟩ := x
    cases i with
    | zero =>
      cases j with
      | zero => exact h
      | succ j =>
        simp only [List.getElem?_cons_zero, Option.some.injEq, Prod.mk.injEq] at hi
        obtain ⟨rfl, rfl⟩ := hi
        change ((ask e u m q').1 :: askAll u l _)[0]? = _ at h
        simp only [List.getElem?_cons_zero, Option.some.injEq] at h
        simp only [List.getElem?_cons_succ] at hj
        show (_ :: askAll u l _)[j + 1]? = _
        rw [List.getElem?_cons_succ]
        exact later l _ j (ask_kept h) hj
    | succ i =>
      cases j with
      | zero => omega
      | succ j =>
        simp only [List.getElem?_cons_succ] at hi hj
        change (_ :: askAll u l (ask e u m q').2)[i + 1]? = _ at h
        show (_ :: askAll u l (ask e u m q').2)[j + 1]? = _
        rw [List.getElem?_cons_succ] at h ⊢
        exact ih _ i j (by omega) hi hj h

/-! ## Translated texts of jobs -/

theorem agree_iff {α : Type} {a b : Except Exc α} : Agree a b ↔ (∃ x, a = .ok x ∧ b = .ok x) ∨
    ∃ e e', a = .error e ∧ b = .error e' := by
  cases a <;> cases b <;> simp [Agree, eq_comm]

theorem agree_refl {α : Type} (a : Except Exc α) : Agree a a := by cases a <;> simp [Agree]

theorem agree_bind {α β : Type} {a b : Except Exc α} {f g : α → Except Exc β} (h : Agree a b)
    (h' : ∀ x, Agree (f x) (g x)) : Agree (a >>= f) (b >>= g) := by
  rcases agree_iff.1 h with ⟨x, rfl, rfl⟩ | ⟨e, e', rfl, rfl⟩
  · exact h' x
  · exact True.intro

/-- Without translations the translated texts of a job are its texts.  The part that holds: unless the newlines at
the end of a text decide how it is cleaned up, and unless the summary is missing and parameters are put into the
identifier that stands in for it. -/
theorem C82_texts_partial (r : Rec) (u : Unit') (env : Env) (hu : Loaded r u) (he : Untranslated env) (hs : Sturdy r) :
    Agree (jobText env u .trDescription) (jobText env u .description) ∧
      ((r.fields.lookup "_summary".toList ≠ none ∨ r.fields.lookup "summary".toList ≠ none ∨
        (u.parametric = false ∧ u.jinja2 = false)) →
        Agree (jobText env u .trSummary) (jobText env u .summary)) := by
  have hg := C82_untranslated_partial r u env hu he hs
  constructor
  · have hl : (fun n => env.label (upper n)) = upper := funext fun n => he.2 _
    show Agree (describedBy (fun n => getTranslatedRecordValue env u n none) (fun n => env.label (upper n)))
      (describedBy (fun n => getRecordValue env u n none) upper)
    rw [hl]
    unfold describedBy
    apply agree_bind (hg _)
    intro o
    cases o with
    | some v => exact agree_refl _
    | none =>
      apply agree_bind (hg _)
      intro a
      apply agree_bind (hg _)
      intro b
      apply agree_bind (hg _)
      intro c
      exact agree_refl _
  · intro hsum
    show Agree (identifier env u >>= fun d => getTranslatedRecordValue env u _ d)
      (identifier env u >>= fun d => getRecordValue env u _ d)
    apply agree_bind (agree_refl _)
    intro d
    have hd : ∀ n, u.data.lookup n = (r.fields.lookup n).map normalize := fun n => by
      rw [hu.data]; exact lookup_map_snd _ _ _
    have hr : ∀ n, u.raw.lookup n = (r.fields.lookup n).map rstripNL := fun n => by
      rw [hu.raw]; exact lookup_map_snd _ _ _
    have hgs := hg "summary".toList
    unfold getTranslatedRecordValue getRecordValue at hgs ⊢
    rw [hr, hd, hd] at hgs ⊢
    have e1 : ('_' :: "summary".toList) = "_summary".toList := by decide
    rw [e1] at hgs ⊢
    cases h1 : r.fields.lookup "_summary".toList with
    | some v =>
      rw [h1] at hgs
      exact hgs
    | none =>
      rw [h1] at hgs
      cases h2 : r.fields.lookup "summary".toList with
      | some v =>
        rw [h2] at hgs
        exact hgs
      | none =>
        rw [h1, h2] at hsum
        have hpl : u.parametric = false ∧ u.jinja2 = false := by
          rcases hsum with h | h | h
          · exact absurd rfl h
          · exact absurd rfl h
          · exact h
        cases d with
        | none => rfl
        | some d =>
          simp only [Option.map_none, Option.none_or]
          have : fill env u d = .ok d := by
            unfold fill
            rw [hpl.1, hpl.2]
            rfl
          rw [this]
          rfl

/-! ## Examples and violations -/

/-- A small formatter: `{name}` is replaced by the value of the parameter. -/
def exFormat (ps : List (Str × Str)) : Option Str → Str → Except Exc Str
  | none, [] => .ok []
  | some _, [] => .error .other
  | none, c :: l =>
    if c = '{' then exFormat ps (some []) l
    else (exFormat ps none l).map (c :: ·)
  | some n, c :: l =>
    if c = '}' then
      match ps.lookup n with
      | none => .error .keyError
      | some v => (exFormat ps none l).map (v ++ ·)
    else exFormat ps (some (n ++ [c])) l

/-- Nothing is translated; the parameter `dev` is `{0}`, as it may be for a name that somebody else chose. -/
def exEnv : Env where
  format := exFormat [("dev".toList, "{0}".toList), ("n".toList, "1".toList)] none
  render := fun _ v => .ok v
  translate := id
  label := id

/-- A job definition as a file has it. -/
def exLines : List Str :=
  ["id: disk-{dev}\n".toList, "_purpose:\n".toList, "    Look at\n".toList, "    the disk\n".toList,
   "_steps:\n".toList, "    1. open\n".toList, "    .\n".toList, "    2. close\n".toList]

/-- The record of these lines. -/
def exRec : Rec := (gen exLines).1.headD ⟨[], none, none, []⟩

/-- The job of this record, with parameters. -/
def exUnit (parametric : Bool) : Unit' := { fromRecord exRec with parametric := parametric }

/-- A text of two lines reads differently although nothing is translated: the second line keeps its indentation. -/
theorem C82_untranslated_violated : ∃ (r : Rec) (env : Env) (name : Str), r ∈ (gen exLines).1 ∧ Untranslated env ∧
    getRecordValue env (fromRecord r) name none = .ok (some "Look at\nthe disk".toList) ∧
    getTranslatedRecordValue env (fromRecord r) name none = .ok (some "Look at\n   the disk".toList) := by
  refine ⟨exRec, exEnv, "purpose".toList, ?_, ⟨fun _ => rfl, fun _ => rfl⟩, ?_, ?_⟩
  · decide +kernel
  · decide +kernel
  · decide +kernel

/-- The identifier that stands in for a missing summary has its parameters put in twice: if the value of a parameter
contains a brace, the summary cannot be read, although the identifier and the translated summary can. -/
theorem C82_default_violated : ∃ (r : Rec) (u : Unit') (env : Env), r ∈ (gen exLines).1 ∧ Loaded r u ∧
    jobText env u .partialId = .ok (some "disk-{0}".toList) ∧
    jobText env u .summary = .error .missingParam ∧
    jobText env u .trSummary = .ok (some "disk-{0}".toList) := by
  refine ⟨exRec, exUnit true, exEnv, ?_, ⟨rfl, rfl⟩, ?_, ?_, ?_⟩
  · decide +kernel
  · decide +kernel
  · decide +kernel
  · decide +kernel

/-- `C82_field`, `C82_translated`: three lines and a dot. -/
example : (getRecordValue exEnv (exUnit true) "steps".toList none) = .ok (some "1. open\n\n2. close".toList) ∧
    getRawRecordValue exEnv (exUnit true) "steps".toList none =
      .ok (some "   1. open\n   .\n   2. close".toList) ∧
    getTranslatedRecordValue exEnv (exUnit true) "steps".toList none = .ok (some "1. open\n\n2. close".toList) := by
  decide +kernel

example : exRec.fields.lookup ('_' :: "steps".toList) = some "   1. open\n   .\n   2. close\n".toList := by
  decide +kernel

/-- `C82_absent`, `C82_unmarked`. -/
example : exRec.fields.lookup ('_' :: "summary".toList) = none ∧ exRec.fields.lookup "summary".toList = none ∧
    exRec.fields.lookup ('_' :: "id".toList) = none ∧
    getTranslatedRecordValue exEnv (exUnit true) "id".toList none = .ok (some "disk-{0}".toList) := by
  decide +kernel

/-- `C82_marked`: marking the summary. -/
example : let pre := [("id".toList, "a\n".toList)]
    let post := [("_steps".toList, "b\n".toList)]
    (pre ++ post).lookup "summary".toList = none ∧ (pre ++ post).lookup "_summary".toList = none ∧
    "summary".toList.head? ≠ some '_' := by decide

/-- `C82_untranslated_partial`, `C82_texts_partial`: a sturdy record, with texts of one line and of three lines. -/
def exSturdy : Rec :=
  (gen ["id: a\n".toList, "_summary: A {n}\n".toList, "_steps:\n".toList, "    1. open\n".toList, "    .\n".toList,
    "    2. close\n".toList]).1.headD ⟨[], none, none, []⟩

example : Sturdy exSturdy ∧ jobText exEnv { fromRecord exSturdy with parametric := true } .trDescription =
    .ok (some "STEPS:\n1. open\n\n2. close".toList) ∧
    jobText exEnv { fromRecord exSturdy with parametric := true } .trSummary = .ok (some "A 1".toList) := by
  refine ⟨?_, by decide +kernel, by decide +kernel⟩
  intro n v h
  have hf : exSturdy.fields = [("id".toList, "a\n".toList), ("_summary".toList, "A {n}\n".toList),
      ("_steps".toList, "   1. open\n   .\n   2. close\n".toList)] := by decide +kernel
  rw [hf] at h
  have hv : v = "a\n".toList ∨ v = "A {n}\n".toList ∨ v = "   1. open\n   .\n   2. close\n".toList := by
    simp only [List.mem_cons, Prod.mk.injEq, List.not_mem_nil, or_false] at h
    rcases h with h | h | h
    · exact .inl h.2
    · exact .inr (.inl h.2)
    · exact .inr (.inr h.2)
  unfold Fragile
  rcases hv with rfl | rfl | rfl
  · decide +kernel
  · decide +kernel
  · decide +kernel

/-- `C82_remembered`: the summary of the violation fails again and again, the others stay. -/
example : askAll (exUnit true) ([.text .summary, .text .trSummary, .text .partialId, .text .summary].map
    fun q => (exEnv, q)) ⟨[], []⟩ =
    [.error .missingParam, .ok (some "disk-{0}".toList), .ok (some "disk-{0}".toList), .error .missingParam] := by
  decide +kernel

/-- `C82_stable`: after a change of the language the old text is read, a text that was not read before is new. -/
example :
    let env' : Env := { exEnv with translate := fun m => m ++ "!".toList, label := id }
    askAll (fromRecord exSturdy) [(exEnv, .text .trSummary), (env', .text .trSummary), (env', .text .trDescription)]
      ⟨[], []⟩ =
    [.ok (some "A {n}".toList), .ok (some "A {n}".toList), .ok (some "STEPS:\n1. open\n\n2. close!".toList)] := by
  decide +kernel

end Verif.Fields
