import Verif.Model.Validate
import Verif.Props.DepMgr

set_option linter.unusedSectionVars false

/-!
# C72: what validation of a provider guarantees

* `C72_valid_partial`: when `manage.py validate` succeeds.
* `C72_strict`: `--strict` only refuses more.
* `C72_resolves_partial`: if all providers validate, then the dependencies of any jobs can be resolved, but for cycles.
* `C72_cycle_violated`: jobs that depend on each other pass.
* `C72_installed_crash_violated`, `C72_installed_valid_violated`: if a provider of the same name is installed, the
  one under test is checked against the installed one.
* `C72_repeated_violated`: problems are reported more than once.
-/

namespace Verif.Validate

variable {I : Type} [DecidableEq I]

/-! ## Specification -/

/-- Among the units, `r` and only `r` has this identifier. -/
def Only (ctx : List (Unit I)) (i : I) (r : Unit I) : Prop :=
  ∃ pre post, ctx = pre ++ r :: post ∧ r.idAttr = some (some i) ∧ ∀ v ∈ pre ++ post, v.idAttr ≠ some (some i)

/-- A reference to exactly one unit, of the right kind. -/
def Refers (ctx : List (Unit I)) (right : Unit I → Prop) (i : I) : Prop := ∃ r, Only ctx i r ∧ right r

/-- All references of a job are right. -/
structure SoundJob (ctx : List (Unit I)) (u : Unit I) : Prop where
  depends : ∀ i ∈ u.depends, Refers ctx (fun r => r.kind = .job) i
  after : ∀ i ∈ u.after, Refers ctx (fun r => r.kind = .job) i
  requires : ∃ is, u.requires = some is ∧ ∀ i ∈ is, Refers ctx (fun r => r.kind = .job ∧ r.resource = true) i
  imports : ∃ is, u.imports = some is ∧ ∀ i ∈ is, Refers ctx (fun r => r.kind = .job) i
  category : ∀ i, u.category = some i → Refers ctx (fun r => r.kind = .category) i

/-- A unit is right: it has an identifier, which one unit has; its references are right. -/
structure Sound (ctx : List (Unit I)) (u : Unit I) : Prop where
  id : u.withId = true → ∃ i, u.idAttr = some (some i) ∧ ∃ r, Only ctx i r
  job : u.kind = .job → SoundJob ctx u

/-- The other validators have nothing to say that counts. -/
def Quiet (strict : Bool) (u : Unit I) : Prop :=
  .error ∉ u.others ∧ (strict = true → .warning ∉ u.others)

/-! ## The loop -/

theorem loop_cases (strict : Bool) : ∀ (es : List Event) (b : Bool),
    (loop strict es b = .raised ↔ .raise ∈ es) ∧
    (loop strict es b = .valid ↔ b = false ∧ ∀ e ∈ es, ∃ s, e = .issue s ∧ fails strict s = false)
  | [], b => by cases b <;> simp [loop]
  | .raise :: es, b => by
    refine ⟨⟨fun _ => by simp, fun _ => rfl⟩, ⟨fun h => (nomatch h), fun h => ?_⟩⟩
    obtain ⟨s, hs, _⟩ := h.2 .raise (by simp)
    cases hs
  | .issue s :: es, b => by
    obtain ⟨h1, h2⟩ := loop_cases strict es (b || fails strict s)
    refine ⟨h1.trans (by simp), h2.trans ?_⟩
    constructor
    · rintro ⟨hb, h⟩
      have hb' := Bool.or_eq_false_iff.mp hb
      refine ⟨hb'.1, fun e he => ?_⟩
      rcases List.mem_cons.mp he with rfl | he
      · exact ⟨s, rfl, hb'.2⟩
      · exact h e he
    · rintro ⟨hb, h⟩
      refine ⟨?_, fun e he => h e (by simp [he])⟩
      obtain ⟨s', hs', hf⟩ := h _ (List.mem_cons_self ..)
      injection hs' with hs'
      subst hs'
      rw [hb, hf]; rfl

/-- Nothing that counts. -/
def Silent (strict : Bool) (es : List Event) : Prop := ∀ e ∈ es, ∃ s, e = .issue s ∧ fails strict s = false

theorem silent_append {strict : Bool} {a b : List Event} :
    Silent strict (a ++ b) ↔ Silent strict a ∧ Silent strict b := by
  unfold Silent
  constructor
  · exact fun h => ⟨fun e he => h e (by simp [he]), fun e he => h e (by simp [he])⟩
  · rintro ⟨h1, h2⟩ e he
    rcases List.mem_append.mp he with he | he
    · exact h1 e he
    · exact h2 e he

theorem silent_flatMap {α : Type} {strict : Bool} {l : List α} {f : α → List Event} :
    Silent strict (l.flatMap f) ↔ ∀ a ∈ l, Silent strict (f a) := by
  unfold Silent
  constructor
  · exact fun h a ha e he => h e (List.mem_flatMap.mpr ⟨a, ha, he⟩)
  · intro h e he
    obtain ⟨a, ha, he⟩ := List.mem_flatMap.mp he
    exact h a ha e he

theorem silent_nil {strict : Bool} : Silent strict [] := fun _ h => nomatch h

theorem not_silent_error {strict : Bool} {es : List Event} (h : .issue .error ∈ es) : ¬ Silent strict es := by
  intro hs
  obtain ⟨s, hs', hf⟩ := hs _ h
  injection hs' with hs'
  subst hs'
  cases hf

theorem not_silent_raise {strict : Bool} {es : List Event} (h : .raise ∈ es) : ¬ Silent strict es := by
  intro hs
  obtain ⟨s, hs', _⟩ := hs _ h
  cases hs'

/-! ## Units with an identifier -/

theorem filter_singleton {α : Type} (p : α → Bool) : ∀ {l : List α} {r : α}, l.filter p = [r] ↔
    ∃ pre post, l = pre ++ r :: post ∧ p r = true ∧ ∀ v ∈ pre ++ post, p v = false := by
  intro l r
  constructor
  · intro h
    induction l with
    | nil => cases h
    | cons a l ih =>
      cases ha : p a with
      | true =>
        rw [List.filter_cons, if_pos ha] at h
        injection h with h1 h2
        subst h1
        refine ⟨[], l, rfl, ha, fun v hv => ?_⟩
        have := List.filter_eq_nil_iff.mp h2 v (by simpa using hv)
        simpa using this
      | false =>
        rw [List.filter_cons, if_neg (by simp [ha])] at h
        obtain ⟨pre, post, rfl, hr, hv⟩ := ih h
        refine ⟨a :: pre, post, rfl, hr, fun v hv' => ?_⟩
        rcases List.mem_cons.mp hv' with rfl | hv'
        · exact ha
        · exact hv v hv'
  · rintro ⟨pre, post, rfl, hr, hv⟩
    have h1 : pre.filter p = [] := List.filter_eq_nil_iff.mpr fun v h => by simp [hv v (by simp [h])]
    have h2 : post.filter p = [] := List.filter_eq_nil_iff.mpr fun v h => by simp [hv v (by simp [h])]
    rw [List.filter_append, h1, List.filter_cons, if_pos hr, h2]
    rfl

theorem only_iff {ctx : List (Unit I)} {i : I} {r : Unit I} : Only ctx i r ↔ withValue ctx (some i) = [r] := by
  unfold Only withValue
  rw [filter_singleton]
  simp only [decide_eq_true_eq, decide_eq_false_iff_not, ne_eq]

theorem only_perm {ctx ctx' : List (Unit I)} (h : ctx.Perm ctx') {i : I} {r : Unit I} (ho : Only ctx i r) :
    Only ctx' i r := by
  rw [only_iff] at *
  have := (h.filter fun u : Unit I => decide (u.idAttr = some (some i)))
  unfold withValue at *
  rw [ho] at this
  exact (List.perm_singleton.mp this.symm)

/-- Only one unit: the identifier tells which. -/
theorem only_eq {ctx : List (Unit I)} {i : I} {r u : Unit I} (h : Only ctx i r) (hu : u ∈ ctx)
    (hi : u.idAttr = some (some i)) : u = r := by
  obtain ⟨pre, post, rfl, _, hv⟩ := h
  rcases List.mem_append.mp hu with hu | hu
  · exact absurd hi (hv u (by simp [hu]))
  · rcases List.mem_cons.mp hu with rfl | hu
    · rfl
    · exact absurd hi (hv u (by simp [hu]))

theorem only_mem {ctx : List (Unit I)} {i : I} {r : Unit I} (h : Only ctx i r) : r ∈ ctx := by
  obtain ⟨pre, post, rfl, _, _⟩ := h; simp

theorem ref_silent {strict : Bool} {ctx : List (Unit I)} {constraints : Unit I → List Bool}
    {right : Unit I → Prop} (hc : ∀ r, right r ↔ ∀ b ∈ constraints r, b = true) (i : I) :
    Silent strict (refEvents ctx constraints i) ↔ Refers ctx right i := by
  unfold refEvents Refers
  simp only [only_iff]
  cases h : withValue ctx (some i) with
  | nil =>
    constructor
    · exact fun hs => absurd hs (not_silent_error (by simp))
    · rintro ⟨r, hr, _⟩; cases hr
  | cons r rest =>
    cases rest with
    | cons r' rest =>
      constructor
      · exact fun hs => absurd hs (not_silent_error (by simp))
      · rintro ⟨r, hr, _⟩; injection hr with _ hr; cases hr
    | nil =>
      constructor
      · intro hs
        refine ⟨r, rfl, (hc r).mpr fun b hb => ?_⟩
        cases b with
        | true => rfl
        | false =>
          exact absurd hs (not_silent_error (List.mem_map.mpr
            ⟨false, List.mem_filter.mpr ⟨hb, rfl⟩, rfl⟩))
      · rintro ⟨r', hr, hright⟩
        injection hr with hr
        subst hr
        intro e he
        obtain ⟨b, hb, _⟩ := List.mem_map.mp he
        obtain ⟨hb1, hb2⟩ := List.mem_filter.mp hb
        rw [(hc r).mp hright b hb1] at hb2
        cases hb2

theorem refs_silent {strict : Bool} {ctx : List (Unit I)} {constraints : Unit I → List Bool}
    {right : Unit I → Prop} (hc : ∀ r, right r ↔ ∀ b ∈ constraints r, b = true) (refs : Option (List I)) :
    Silent strict (refsEvents ctx constraints refs) ↔ ∃ is, refs = some is ∧ ∀ i ∈ is, Refers ctx right i := by
  cases refs with
  | none =>
    constructor
    · exact fun hs => absurd hs (not_silent_error (by simp [refsEvents]))
    · rintro ⟨is, h, _⟩; cases h
  | some is =>
    unfold refsEvents
    dsimp only
    rw [silent_flatMap]
    constructor
    · exact fun h => ⟨is, rfl, fun i hi => (ref_silent hc i).mp (h i hi)⟩
    · rintro ⟨is', h, hr⟩ i hi
      injection h with h
      subst h
      exact (ref_silent hc i).mpr (hr i hi)

theorem isJob_iff (r : Unit I) : r.kind = .job ↔ ∀ b ∈ isJob r, b = true := by
  simp [isJob]

theorem isCategory_iff (r : Unit I) : r.kind = .category ↔ ∀ b ∈ isCategory r, b = true := by
  simp [isCategory]

theorem isResourceJob_iff (r : Unit I) :
    (r.kind = .job ∧ r.resource = true) ↔ ∀ b ∈ isResourceJob r, b = true := by
  unfold isResourceJob
  by_cases h : r.kind = .job
  · simp [h]
  · simp [h]

theorem job_silent {strict : Bool} {ctx : List (Unit I)} {u : Unit I} (hu : u.kind = .job) :
    Silent strict (jobEvents ctx u) ↔ SoundJob ctx u := by
  unfold jobEvents
  rw [if_pos hu]
  simp only [silent_append, refs_silent isJob_iff, refs_silent isCategory_iff, refs_silent isResourceJob_iff]
  constructor
  · rintro ⟨⟨⟨⟨⟨a, ha, h1⟩, ⟨c, hc, h2⟩⟩, ⟨d, hd, h3⟩⟩, h4⟩, h5⟩
    injection ha with ha
    injection hc with hc
    injection hd with hd
    subst ha hc hd
    exact ⟨h3, h1, h5, h4, fun i hi => h2 i (by simp [hi])⟩
  · rintro ⟨h3, h1, h5, h4, h2⟩
    exact ⟨⟨⟨⟨⟨_, rfl, h1⟩, ⟨_, rfl, fun i hi => h2 i (by simpa using hi)⟩⟩, ⟨_, rfl, h3⟩⟩, h4⟩, h5⟩

theorem id_silent {strict : Bool} {ctx : List (Unit I)} {u : Unit I} (hu : u.withId = true) :
    Silent strict (idEvents ctx u) ↔ ∃ i, u.idAttr = some (some i) ∧ ∃ r, Only ctx i r := by
  unfold idEvents
  rw [if_pos hu, silent_append]
  constructor
  · rintro ⟨h1, h2⟩
    cases hj : u.idAttr.join with
    | none => rw [hj] at h1; exact absurd h1 (not_silent_error (by simp [presentEvents]))
    | some i =>
      rw [hj] at h2
      refine ⟨i, Option.join_eq_some_iff.mp hj, ?_⟩
      simp only [only_iff]
      unfold uniqueEvents at h2
      cases hw : withValue ctx (some i) with
      | nil => rw [hw] at h2; exact absurd h2 (not_silent_raise (by simp))
      | cons r rest =>
        cases rest with
        | nil => exact ⟨r, rfl⟩
        | cons r' rest => rw [hw] at h2; exact absurd h2 (not_silent_error (by simp))
  · rintro ⟨i, hi, r, hr⟩
    rw [hi]
    refine ⟨silent_nil, ?_⟩
    rw [only_iff] at hr
    unfold uniqueEvents
    rw [show (some (some i)).join = some i from rfl, hr]
    exact silent_nil

theorem others_silent {strict : Bool} {u : Unit I} :
    Silent strict (u.others.map .issue) ↔ Quiet strict u := by
  unfold Silent Quiet
  constructor
  · intro h
    constructor
    · intro he
      exact not_silent_error (strict := strict) (List.mem_map.mpr ⟨_, he, rfl⟩) h
    · intro hst hw
      obtain ⟨s, hs, hf⟩ := h (.issue .warning) (List.mem_map.mpr ⟨_, hw, rfl⟩)
      injection hs with hs
      subst hs
      rw [hst] at hf
      cases hf
  · rintro ⟨h1, h2⟩ e he
    obtain ⟨s, hs, rfl⟩ := List.mem_map.mp he
    refine ⟨s, rfl, ?_⟩
    cases s with
    | error => exact absurd hs h1
    | warning =>
      cases strict with
      | true => exact absurd hs (h2 rfl)
      | false => rfl
    | advice => rfl

theorem unit_silent {strict : Bool} {ctx : List (Unit I)} {u : Unit I} :
    Silent strict (unitEvents ctx u) ↔ Quiet strict u ∧ Sound ctx u := by
  unfold unitEvents
  rw [silent_append, silent_append, others_silent]
  have h1 : Silent strict (idEvents ctx u) ↔
      (u.withId = true → ∃ i, u.idAttr = some (some i) ∧ ∃ r, Only ctx i r) := by
    by_cases hu : u.withId = true
    · rw [id_silent hu]; exact ⟨fun h _ => h, fun h => h hu⟩
    · unfold idEvents; rw [if_neg hu]; exact ⟨fun _ h => absurd h hu, fun _ => silent_nil⟩
  have h2 : Silent strict (jobEvents ctx u) ↔ (u.kind = .job → SoundJob ctx u) := by
    by_cases hu : u.kind = .job
    · rw [job_silent hu]; exact ⟨fun h _ => h, fun h => h hu⟩
    · unfold jobEvents; rw [if_neg hu]; exact ⟨fun _ h => absurd h hu, fun _ => silent_nil⟩
  rw [h1, h2]
  exact ⟨fun ⟨⟨a, b⟩, c⟩ => ⟨a, b, c⟩, fun ⟨a, b, c⟩ => ⟨⟨a, b⟩, c⟩⟩

theorem early_length (n : Nat) : (earlyEvents n).length = n * n := by
  simp [earlyEvents, List.length_flatMap, List.map_const', List.sum_replicate_nat]

theorem early_silent {strict : Bool} {n : Nat} : Silent strict (earlyEvents n) ↔ n = 0 := by
  constructor
  · intro h
    cases n with
    | zero => rfl
    | succ n =>
      refine absurd h (not_silent_error (List.mem_flatMap.mpr ⟨0, by simp, ?_⟩))
      exact List.mem_map.mpr ⟨0, by simp, rfl⟩
  · rintro rfl; exact silent_nil

theorem checkUnits_valid {strict : Bool} {ctx : List (Unit I)} {p : Provider I} :
    checkUnits strict ctx p = .valid ↔ p.problems = 0 ∧ ∀ u ∈ p.unitList, Quiet strict u ∧ Sound ctx u := by
  unfold checkUnits
  rw [(loop_cases strict _ false).2]
  constructor
  · rintro ⟨_, h⟩
    have h' := silent_append.mp h
    exact ⟨early_silent.mp h'.1, fun u hu => unit_silent.mp (silent_flatMap.mp h'.2 u hu)⟩
  · rintro ⟨h1, h2⟩
    exact ⟨rfl, silent_append.mpr ⟨early_silent.mpr h1,
      silent_flatMap.mpr fun u hu => unit_silent.mpr (h2 u hu)⟩⟩

theorem uniqueEvents_raise {ctx : List (Unit I)} {v : Option I} :
    .raise ∈ uniqueEvents ctx v ↔ ∀ u ∈ ctx, u.idAttr ≠ some v := by
  unfold uniqueEvents
  have hnil : withValue ctx v = [] ↔ ∀ u ∈ ctx, u.idAttr ≠ some v := by
    unfold withValue; rw [List.filter_eq_nil_iff]; simp
  rw [← hnil]
  cases withValue ctx v with
  | nil => simp
  | cons r rest => cases rest <;> simp

theorem no_raise_refs {ctx : List (Unit I)} {c : Unit I → List Bool} {refs : Option (List I)} :
    .raise ∉ refsEvents ctx c refs := by
  cases refs with
  | none => simp [refsEvents]
  | some is =>
    unfold refsEvents
    intro h
    obtain ⟨i, _, h⟩ := List.mem_flatMap.mp h
    unfold refEvents at h
    cases hw : withValue ctx (some i) with
    | nil => rw [hw] at h; simp at h
    | cons r rest =>
      rw [hw] at h
      cases rest with
      | cons => simp at h
      | nil => obtain ⟨_, _, h⟩ := List.mem_map.mp h; cases h

theorem unit_raises {ctx : List (Unit I)} {u : Unit I} :
    .raise ∈ unitEvents ctx u ↔ u.withId = true ∧ ∀ v ∈ ctx, v.idAttr ≠ some u.idAttr.join := by
  have hj : .raise ∉ jobEvents ctx u := by
    unfold jobEvents
    split
    · simp only [List.mem_append, no_raise_refs, or_self, not_false_eq_true]
    · simp
  have ho : Event.raise ∉ u.others.map Event.issue := by simp
  have hi : .raise ∈ idEvents ctx u ↔ u.withId = true ∧ ∀ v ∈ ctx, v.idAttr ≠ some u.idAttr.join := by
    unfold idEvents
    by_cases hw : u.withId = true
    · rw [if_pos hw, List.mem_append, uniqueEvents_raise]
      have : .raise ∉ presentEvents u.idAttr.join := by cases u.idAttr.join <;> simp [presentEvents]
      exact ⟨fun h => ⟨hw, h.resolve_left this⟩, fun h => .inr h.2⟩
    · rw [if_neg hw]; exact ⟨fun h => (nomatch h), fun h => absurd h.1 hw⟩
  unfold unitEvents
  rw [List.mem_append, List.mem_append, hi]
  exact ⟨fun h => (h.resolve_right hj).resolve_left ho, fun h => .inl (.inr h)⟩

theorem checkUnits_raised {strict : Bool} {ctx : List (Unit I)} {p : Provider I} :
    checkUnits strict ctx p = .raised ↔
      ∃ u ∈ p.unitList, u.withId = true ∧ ∀ v ∈ ctx, v.idAttr ≠ some u.idAttr.join := by
  unfold checkUnits
  rw [(loop_cases strict _ false).1, List.mem_append, List.mem_flatMap]
  have he : Event.raise ∉ earlyEvents p.problems := by
    intro h
    obtain ⟨_, _, h⟩ := List.mem_flatMap.mp h
    obtain ⟨_, _, h⟩ := List.mem_map.mp h
    cases h
  simp only [he, false_or, unit_raises]

theorem refers_perm {ctx ctx' : List (Unit I)} (h : ctx.Perm ctx') {right : Unit I → Prop} {i : I}
    (hr : Refers ctx right i) : Refers ctx' right i := by
  obtain ⟨r, ho, hr⟩ := hr
  exact ⟨r, only_perm h ho, hr⟩

theorem sound_perm {ctx ctx' : List (Unit I)} (h : ctx.Perm ctx') {u : Unit I} (hs : Sound ctx u) :
    Sound ctx' u := by
  refine ⟨fun hw => ?_, fun hk => ?_⟩
  · obtain ⟨i, hi, r, hr⟩ := hs.id hw
    exact ⟨i, hi, r, only_perm h hr⟩
  · have hj := hs.job hk
    obtain ⟨rs, hr, hr'⟩ := hj.requires
    obtain ⟨is, hi, hi'⟩ := hj.imports
    exact ⟨fun i hi => refers_perm h (hj.depends i hi), fun i hi => refers_perm h (hj.after i hi),
      ⟨rs, hr, fun i hi => refers_perm h (hr' i hi)⟩, ⟨is, hi, fun i hi => refers_perm h (hi' i hi)⟩,
      fun i hi => refers_perm h (hj.category i hi)⟩

/-! ## Validation of a provider -/

/-- All units there are: those of the provider, those of the providers installed under other names, and the
built-in ones unless they are the provider itself. -/
def everything (installed : List (Provider I)) (categories manifest p : Provider I) : List (Unit I) :=
  p.unitList ++ (installed.filter fun q => q.name ≠ p.name).flatMap (·.unitList) ++
    (if p.baseDir = categories.baseDir then [] else categories.unitList) ++
    (if p.baseDir = manifest.baseDir then [] else manifest.unitList)

theorem context_eq (installed : List (Provider I)) (categories manifest p : Provider I) :
    unitsOf (contextProviders installed categories manifest p) =
      unitsOf (if installed.all fun q => q.name ≠ p.name then installed ++ [p] else installed) ++
      (if p.baseDir = categories.baseDir then [] else categories.unitList) ++
      (if p.baseDir = manifest.baseDir then [] else manifest.unitList) := by
  unfold contextProviders unitsOf
  dsimp only
  generalize (if (installed.all fun q => decide (q.name ≠ p.name)) = true then installed ++ [p] else installed) = l
  by_cases h1 : p.baseDir = categories.baseDir <;> by_cases h2 : p.baseDir = manifest.baseDir
  · rw [if_neg (show ¬ p.baseDir ≠ manifest.baseDir from fun h => h h2),
      if_neg (show ¬ p.baseDir ≠ categories.baseDir from fun h => h h1), if_pos h1, if_pos h2]
    simp
  · rw [if_pos (show p.baseDir ≠ manifest.baseDir from h2),
      if_neg (show ¬ p.baseDir ≠ categories.baseDir from fun h => h h1), if_pos h1, if_neg h2]
    simp
  · rw [if_neg (show ¬ p.baseDir ≠ manifest.baseDir from fun h => h h2),
      if_pos (show p.baseDir ≠ categories.baseDir from h1), if_neg h1, if_pos h2]
    simp
  · rw [if_pos (show p.baseDir ≠ manifest.baseDir from h2),
      if_pos (show p.baseDir ≠ categories.baseDir from h1), if_neg h1, if_neg h2]
    simp

theorem context_perm {installed : List (Provider I)} {categories manifest p : Provider I}
    (hname : ∀ q ∈ installed, q.name ≠ p.name) :
    (unitsOf (contextProviders installed categories manifest p)).Perm
      (everything installed categories manifest p) := by
  have hall : (installed.all fun q => q.name ≠ p.name) = true := by
    rw [List.all_eq_true]; intro q hq; simpa using hname q hq
  rw [context_eq, if_pos hall]
  unfold everything unitsOf
  rw [List.filter_eq_self.mpr (fun q hq => by simpa using hname q hq), List.flatMap_append]
  refine List.Perm.append_right _ (List.Perm.append_right _ ?_)
  rw [show [p].flatMap (·.unitList) = p.unitList by simp]
  exact List.perm_append_comm

/-- **C72 (partial)**: provided that no other provider of its name is installed, `manage.py validate` succeeds
exactly if the definition files have no problems, no other validator reports an error (or, with `--strict`, a
warning), every unit that should have an identifier has one which no other unit has, and every reference of a job
is to exactly one unit, of the right kind.  It does not end with an exception.  What is missing: see
`C72_installed_valid_violated`. -/
theorem C72_valid_partial (strict : Bool) (installed : List (Provider I)) (categories manifest p : Provider I)
    (hname : ∀ q ∈ installed, q.name ≠ p.name)
    (hid : ∀ u ∈ p.unitList, u.withId = true → u.idAttr.isSome = true) :
    (validate strict installed categories manifest p = .valid ↔
      p.problems = 0 ∧ ∀ u ∈ p.unitList, Quiet strict u ∧ Sound (everything installed categories manifest p) u ∧
        (u.withId = true → ∃ i, Only (everything installed categories manifest p) i u)) ∧
    validate strict installed categories manifest p ≠ .raised := by
  have hp := context_perm (categories := categories) (manifest := manifest) hname
  have hmem : ∀ u ∈ p.unitList, u ∈ everything installed categories manifest p := by
    intro u hu
    unfold everything
    simp [hu]
  unfold validate
  constructor
  · rw [checkUnits_valid]
    refine and_congr_right fun _ => forall_congr' fun u => forall_congr' fun hu => ?_
    refine and_congr_right fun _ => ⟨fun hs => ?_, fun hs => sound_perm hp.symm hs.1⟩
    refine ⟨sound_perm hp hs, fun hw => ?_⟩
    obtain ⟨i, hi, r, hr⟩ := (sound_perm hp hs).id hw
    rw [only_eq hr (hmem u hu) hi]
    exact ⟨i, hr⟩
  · rw [Ne, checkUnits_raised]
    rintro ⟨u, hu, hw, hno⟩
    refine hno u (hp.mem_iff.mpr (hmem u hu)) ?_
    have := hid u hu hw
    cases h : u.idAttr with
    | none => rw [h] at this; cases this
    | some v => rfl

/-- **C72**: with `--strict`, validation succeeds less often. -/
theorem C72_strict (installed : List (Provider I)) (categories manifest p : Provider I)
    (h : validate true installed categories manifest p = .valid) :
    validate false installed categories manifest p = .valid := by
  unfold validate at *
  rw [checkUnits_valid] at *
  exact ⟨h.1, fun u hu => ⟨⟨(h.2 u hu).1.1, fun hf => nomatch hf⟩, (h.2 u hu).2⟩⟩

/-! ## Validation and dependency resolution -/

theorem withValue_length_le {ctx : List (Unit I)} {i : I} {r : Unit I} (h : Only ctx i r)
    {pre mid post : List (Unit I)} {a b : Unit I} (he : jobs ctx = pre ++ a :: mid ++ b :: post)
    (ha : a.idAttr = some (some i)) (hb : b.idAttr = some (some i)) : False := by
  have h1 : withValue (jobs ctx) (some i) = (withValue ctx (some i)).filter fun u => u.kind = .job := by
    unfold withValue jobs
    rw [List.filter_filter, List.filter_filter]
    congr 1
    funext u
    exact Bool.and_comm ..
  have h2 : (withValue (jobs ctx) (some i)).length ≤ 1 := by
    rw [h1, only_iff.mp h]
    exact List.length_filter_le _ _
  have h3 : 2 ≤ (withValue (jobs ctx) (some i)).length := by
    rw [he]
    unfold withValue
    simp only [List.filter_append, List.length_append]
    rw [List.filter_cons, if_pos (by simpa using ha), List.filter_cons, if_pos (by simpa using hb)]
    simp only [List.length_cons]
    omega
  omega

theorem resolves {ctx : List (Unit I)} (hs : ∀ u ∈ ctx, u.kind = .job → Sound ctx u)
    (hjob : ∀ u ∈ ctx, u.kind = .job → u.withId = true) (selected : List (Unit I))
    (hsel : ∀ u ∈ selected, u ∈ jobs ctx) :
    (∃ order, DepMgr.resolve graph (jobs ctx) (some selected) = .ok order) ∨
    ∃ cycle, DepMgr.resolve graph (jobs ctx) (some selected) = .error (.cycle cycle) := by
  have hvis : DepMgr.VisitConsistent graph (jobs ctx) (some selected) := fun v hv _ => hsel v hv
  have hmem : ∀ u, u ∈ jobs ctx ↔ u ∈ ctx ∧ u.kind = .job := by
    intro u; unfold jobs; simp
  have hident : ∀ u ∈ jobs ctx, ∃ i, u.idAttr = some (some i) ∧ ∃ r, Only ctx i r := by
    intro u hu
    obtain ⟨hc, hk⟩ := (hmem u).mp hu
    exact (hs u hc hk).id (hjob u hc hk)
  cases h : DepMgr.resolve graph (jobs ctx) (some selected) with
  | ok order => exact .inl ⟨order, rfl⟩
  | error e =>
    have ht := DepMgr.C02_errors_truthful graph (jobs ctx) (some selected) hvis e h
    cases e with
    | cycle l => exact .inr ⟨l, rfl⟩
    | unknown v => exact absurd rfl (ht.2 v (hsel v ht.1))
    | duplicate a b =>
      exfalso
      obtain ⟨pre, mid, post, he, hab⟩ := ht
      obtain ⟨i, hi, r, hr⟩ := hident a (by rw [he]; simp)
      obtain ⟨k, hk, _⟩ := hident b (by rw [he]; simp)
      have hik : i = k := by
        have : a.idAttr.join = b.idAttr.join := hab
        rw [hi, hk] at this
        injection this
      subst hik
      exact withValue_length_le hr he hi hk
    | missing j i ty =>
      exfalso
      obtain ⟨hj, _, hd, hno⟩ := ht
      obtain ⟨hc, hk⟩ := (hmem j).mp hj
      have hjs := (hs j hc hk).job hk
      have href : ∀ k : I, Refers ctx (fun r => r.kind = .job) k → some k ≠ i := by
        rintro k ⟨r, hr, hrk⟩ rfl
        refine hno r ((hmem r).mpr ⟨only_mem hr, hrk⟩) ?_
        obtain ⟨_, _, _, hri, _⟩ := hr
        show r.idAttr.join = some k
        rw [hri]; rfl
      have hd' : (ty, i) ∈ dependencySet j := hd
      unfold dependencySet at hd'
      rcases List.mem_append.mp hd' with hd' | hd'
      · rcases List.mem_append.mp hd' with hd' | hd'
        · obtain ⟨k, hk, he⟩ := List.mem_map.mp hd'
          injection he with _ he
          exact href k (hjs.depends k hk) he
        · obtain ⟨k, hk, he⟩ := List.mem_map.mp hd'
          injection he with _ he
          obtain ⟨is, hreq, his⟩ := hjs.requires
          rw [hreq] at hk
          obtain ⟨r, hr, hrk, _⟩ := his k hk
          exact href k ⟨r, hr, hrk⟩ he
      · obtain ⟨k, hk, he⟩ := List.mem_map.mp hd'
        injection he with _ he
        exact href k (hjs.after k hk) he
    | assertion => exact absurd ht id
    | outOfFuel => exact absurd ht id

/-- **C72 (partial)**: if all installed providers and the two built-in ones validate, then resolving the
dependencies of any selection of their jobs succeeds or reports a cycle: there are no unknown, missing or duplicate
jobs.  What is missing: see `C72_cycle_violated`. -/
theorem C72_resolves_partial (strict : Bool) (installed : List (Provider I)) (categories manifest : Provider I)
    (hvalid : ∀ p ∈ installed ++ [categories, manifest], validate strict installed categories manifest p = .valid)
    (hcat : ∀ q ∈ installed, q.name ≠ categories.name ∧ q.baseDir ≠ categories.baseDir)
    (hman : ∀ q ∈ installed, q.name ≠ manifest.name ∧ q.baseDir ≠ manifest.baseDir)
    (hbase : categories.baseDir ≠ manifest.baseDir)
    (hjob : ∀ u ∈ unitsOf (installed ++ [categories, manifest]), u.kind = .job → u.withId = true)
    (selected : List (Unit I))
    (hsel : ∀ u ∈ selected, u ∈ jobs (unitsOf (installed ++ [categories, manifest]))) :
    (∃ order, DepMgr.resolve graph (jobs (unitsOf (installed ++ [categories, manifest]))) (some selected) =
      .ok order) ∨
    ∃ cycle, DepMgr.resolve graph (jobs (unitsOf (installed ++ [categories, manifest]))) (some selected) =
      .error (.cycle cycle) := by
  refine resolves ?_ hjob selected hsel
  have hctx : ∀ p ∈ installed ++ [categories, manifest],
      (unitsOf (contextProviders installed categories manifest p)).Perm
        (unitsOf (installed ++ [categories, manifest])) := by
    intro p hp
    rw [context_eq]
    have hu : unitsOf (installed ++ [categories, manifest]) =
        unitsOf installed ++ (categories.unitList ++ manifest.unitList) := by
      unfold unitsOf; simp
    rw [hu]
    rcases List.mem_append.mp hp with hp | hp
    · have hnall : ¬ (installed.all fun q => q.name ≠ p.name) = true := by
        rw [List.all_eq_true]
        intro h
        simpa using h p hp
      rw [if_neg hnall, if_neg (hcat p hp).2, if_neg (hman p hp).2, List.append_assoc]
    · have hp' : p = categories ∨ p = manifest := by simpa using hp
      rcases hp' with rfl | rfl
      · have hall : (installed.all fun q => q.name ≠ p.name) = true := by
          rw [List.all_eq_true]; intro q hq; simpa using (hcat q hq).1
        rw [if_pos hall, if_pos rfl, if_neg hbase]
        unfold unitsOf; simp
      · have hall : (installed.all fun q => q.name ≠ p.name) = true := by
          rw [List.all_eq_true]; intro q hq; simpa using (hman q hq).1
        rw [if_pos hall, if_pos rfl, if_neg (Ne.symm hbase), List.append_nil]
        unfold unitsOf
        rw [List.flatMap_append, List.append_assoc]
        refine List.Perm.append_left _ ?_
        rw [show [p].flatMap (·.unitList) = p.unitList by simp]
        exact List.perm_append_comm
  intro u hu _
  obtain ⟨p, hp, hup⟩ := List.mem_flatMap.mp hu
  have hv := hvalid p hp
  unfold validate at hv
  exact sound_perm (hctx p hp) ((checkUnits_valid.mp hv).2 u hup).2

/-! ## Examples -/

/-- A job with an identifier and nothing else. -/
def plain (i : Nat) : Unit Nat :=
  { kind := .job, idAttr := some (some i), withId := true, resource := false, depends := [], after := [],
    requires := some [], imports := some [], category := none, others := [] }

def exCategories : Provider Nat :=
  ⟨100, 100, [{ plain 50 with kind := .category, others := [.advice] }], 0⟩

def exManifest : Provider Nat := ⟨101, 101, [], 0⟩

/-- A resource job, and a job that requires it, depends on a job of another provider and has a category. -/
def exProvider : Provider Nat :=
  ⟨1, 1, [{ plain 1 with resource := true },
    { plain 2 with
      requires := some [1], depends := [7], after := [1], category := some 50, others := [.warning] }], 0⟩

def exOther : Provider Nat := ⟨2, 2, [plain 7], 0⟩

example : validate false [exOther] exCategories exManifest exProvider = .valid := by decide +kernel
example : validate true [exOther] exCategories exManifest exProvider = .failed := by decide +kernel
example : validate false [] exCategories exManifest exProvider = .failed := by decide +kernel
example : ∀ q ∈ [exOther], q.name ≠ exProvider.name := by decide
example : ∀ u ∈ exProvider.unitList, u.withId = true → u.idAttr.isSome = true := by decide
example : ∀ p ∈ [exOther, exProvider] ++ [exCategories, exManifest],
    validate false [exOther, exProvider] exCategories exManifest p = .valid := by
  simp only [List.cons_append, List.nil_append, List.forall_mem_cons, List.not_mem_nil, false_imp_iff, implies_true,
    and_true]
  decide +kernel

example : (∀ q ∈ [exOther, exProvider], q.name ≠ exCategories.name ∧ q.baseDir ≠ exCategories.baseDir) ∧
    (∀ q ∈ [exOther, exProvider], q.name ≠ exManifest.name ∧ q.baseDir ≠ exManifest.baseDir) ∧
    exCategories.baseDir ≠ exManifest.baseDir ∧
    ∀ u ∈ unitsOf ([exOther, exProvider] ++ [exCategories, exManifest]), u.kind = .job → u.withId = true := by
  decide +kernel
example : (DepMgr.resolve graph (jobs (unitsOf ([exOther, exProvider] ++ [exCategories, exManifest]))) none).toOption.map
    (·.map (·.idAttr)) = some [some (some 7), some (some 1), some (some 2)] := by decide +kernel

/-! ## Disagreements -/

/-- **C72** is violated: two jobs that depend on each other pass, even with `--strict`, but cannot be resolved. -/
theorem C72_cycle_violated :
    ∃ p : Provider Nat, validate true [] exCategories exManifest p = .valid ∧
      DepMgr.resolve graph (jobs p.unitList) none =
        .error (.cycle [{ plain 1 with depends := [2] }, { plain 2 with depends := [1] },
          { plain 1 with depends := [2] }]) :=
  ⟨⟨1, 1, [{ plain 1 with depends := [2] }, { plain 2 with depends := [1] }], 0⟩, by decide +kernel,
    by decide +kernel⟩

/-- **C72** is violated when a provider of the name is installed: each unit with an identifier that the installed
one does not have yet makes the command end with `KeyError`. -/
theorem C72_installed_crash_violated (strict : Bool) (installed : List (Provider I))
    (categories manifest p q : Provider I) (hq : q ∈ installed) (hname : q.name = p.name) {u : Unit I}
    (hu : u ∈ p.unitList) (hw : u.withId = true) {i : I} (hi : u.idAttr = some (some i))
    (hnew : ∀ v ∈ unitsOf (installed ++ [categories, manifest]), v.idAttr ≠ some (some i)) :
    validate strict installed categories manifest p = .raised := by
  unfold validate
  rw [checkUnits_raised]
  refine ⟨u, hu, hw, fun v hv => ?_⟩
  rw [hi]
  refine hnew v ?_
  rw [context_eq, if_neg] at hv
  · unfold unitsOf at *
    simp only [List.flatMap_append, List.mem_append] at *
    rcases hv with (hv | hv) | hv
    · exact .inl hv
    · split at hv
      · cases hv
      · right; simp [hv]
    · split at hv
      · cases hv
      · right; simp [hv]
  · rw [List.all_eq_true]
    intro h
    have := h q hq
    simp [hname] at this

example : ∃ v ∈ exProvider.unitList, v.withId = true ∧ v.idAttr = some (some 2) ∧
    ∀ w ∈ unitsOf ([⟨1, 9, [{ plain 1 with resource := true }, plain 7], 0⟩] ++ [exCategories, exManifest]),
      w.idAttr ≠ some (some 2) := by
  decide +kernel

/-- **C72** is violated when a provider of the name is installed: a job that depends on one which was removed from
the provider passes, because the installed provider still has it. -/
theorem C72_installed_valid_violated :
    ∃ p old : Provider Nat, old.name = p.name ∧ validate true [old] exCategories exManifest p = .valid ∧
      ¬ (∀ u ∈ p.unitList, Sound (everything [old] exCategories exManifest p) u) := by
  refine ⟨⟨1, 1, [{ plain 1 with depends := [2] }], 0⟩, ⟨1, 2, [plain 1, plain 2], 0⟩, rfl, by decide +kernel, ?_⟩
  intro h
  have hs := ((h _ (List.mem_cons_self ..)).job rfl).depends 2 (by simp)
  obtain ⟨r, hr, _⟩ := hs
  rw [only_iff] at hr
  have : withValue (everything [⟨1, 2, [plain 1, plain 2], 0⟩] exCategories exManifest
      (⟨1, 1, [{ plain 1 with depends := [2] }], 0⟩ : Provider Nat)) (some 2) = [] := by decide +kernel
  rw [this] at hr
  cases hr

/-- **C72** is violated: if there are `n` problems in the definition files, then each is reported `n` times. -/
theorem C72_repeated_violated (n : Nat) : earlyEvents n = List.replicate (n * n) (.issue .error) := by
  rw [List.eq_replicate_iff]
  refine ⟨early_length n, fun e he => ?_⟩
  obtain ⟨_, _, he⟩ := List.mem_flatMap.mp he
  obtain ⟨_, _, he⟩ := List.mem_map.mp he
  exact he.symm

end Verif.Validate
