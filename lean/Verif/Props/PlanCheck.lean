import Verif.Model.PlanCheck
import Verif.Model.Words

/-! # C91: what the validation of a test plan reports -/

namespace Verif.PlanCheck

set_option linter.unusedSectionVars false

variable {I : Type} [DecidableEq I]

/-! ## Specification -/

/-- The lines of a field. -/
def Plan.lines (p : Plan I) : Field → List (Line I)
  | .incl => p.incl
  | .mand => p.mand
  | .boot => p.boot
  | .excl => p.excl
  | .nested => p.nested

/-- Some unit has this identifier. -/
def Known (ctx : List (Unit' I)) (i : I) : Prop := ∃ u ∈ ctx, u.id = some (some i)

/-- Exactly one unit has this identifier, and it is `u`. -/
def Only (ctx : List (Unit' I)) (i : I) (u : Unit' I) : Prop :=
  ∃ a b, ctx = a ++ u :: b ∧ u.id = some (some i) ∧ ∀ v ∈ a ++ b, v.id ≠ some (some i)

/-- Validation comes to its end. -/
def Ends (ctx : List (Unit' I)) (p : Plan I) : Prop := Event.raise ∉ check ctx p

/-- A problem in a line is reported. -/
def Reported (ctx : List (Unit' I)) (p : Plan I) (f : Field) (n : Nat) (s : Severity) : Prop :=
  Event.issue f (some n) s ∈ check ctx p

/-! ## Lemmas -/

theorem mem_ids {ctx : List (Unit' I)} {i : I} : i ∈ ids ctx ↔ Known ctx i := by
  unfold ids Known
  rw [List.mem_filterMap]
  constructor
  · rintro ⟨u, hu, h⟩
    refine ⟨u, hu, ?_⟩
    cases hi : u.id with
    | none => rw [hi] at h; simp at h
    | some x => rw [hi] at h; simpa using h
  · rintro ⟨u, hu, h⟩
    exact ⟨u, hu, by simp [h]⟩

theorem cut_raise {l : List Event} : Event.raise ∈ cut l ↔ Event.raise ∈ l := by
  induction l with
  | nil => rfl
  | cons e l ih =>
    cases e with
    | raise => simp [cut]
    | issue f n s => simp [cut, ih]

theorem cut_id {l : List Event} (h : Event.raise ∉ l) : cut l = l := by
  induction l with
  | nil => rfl
  | cons e l ih =>
    simp only [List.mem_cons, not_or] at h
    cases e with
    | raise => exact absurd rfl h.1
    | issue f n s => rw [cut, ih h.2]; simp

theorem nonEmpty_raise {f : Field} {known : List I} : ∀ {n : Nat} {l : List (Line I)},
    Event.raise ∈ nonEmpty f known n l ↔ none ∈ l
  | _, [] => by simp [nonEmpty]
  | _, none :: _ => by simp [nonEmpty]
  | n, some m :: l => by
    have ih := nonEmpty_raise (f := f) (known := known) (n := n + 1) (l := l)
    unfold nonEmpty
    rw [List.mem_append, ih]
    split <;> simp

theorem overlap_raise {f : Field} {inc : List I} : ∀ {n : Nat} {l : List (Line I)},
    Event.raise ∈ overlap f inc n l ↔ none ∈ l
  | _, [] => by simp [overlap]
  | _, none :: _ => by simp [overlap]
  | n, some m :: l => by
    have ih := overlap_raise (f := f) (inc := inc) (n := n + 1) (l := l)
    unfold overlap
    rw [List.mem_append, ih]
    split <;> simp

theorem included_none {known : List I} : ∀ {l : List (Line I)}, included known l = none ↔ none ∈ l
  | [] => by simp [included]
  | none :: _ => by simp [included]
  | some m :: l => by simp [included, included_none (known := known) (l := l)]

theorem mem_included {known inc : List I} {i : I} : ∀ {l : List (Line I)}, included known l = some inc →
    (i ∈ inc ↔ i ∈ known ∧ ∃ m, some m ∈ l ∧ m.fits i = true) := by
  intro l
  induction l generalizing inc with
  | nil => intro h; cases h; simp
  | cons x l ih =>
    intro h
    cases x with
    | none => cases h
    | some m =>
      simp only [included, Option.map_eq_some_iff] at h
      obtain ⟨a, ha, rfl⟩ := h
      rw [List.mem_append, List.mem_filter, ih ha]
      constructor
      · rintro (⟨h1, h2⟩ | ⟨h1, m', h2, h3⟩)
        · exact ⟨h1, m, List.mem_cons_self, h2⟩
        · exact ⟨h1, m', List.mem_cons_of_mem _ h2, h3⟩
      · rintro ⟨h1, m', h2, h3⟩
        rcases List.mem_cons.1 h2 with h2 | h2
        · cases h2
          exact .inl ⟨h1, h3⟩
        · exact .inr ⟨h1, m', h2, h3⟩

theorem noBase_raise {f : Field} {known : List I} {p : Plan I} {l : List (Line I)} :
    Event.raise ∈ noBase f known p l ↔ none ∈ p.incl ∨ none ∈ l := by
  unfold noBase
  split
  · next h => simp [included_none.1 h]
  · next inc h =>
    have : none ∉ p.incl := fun hn => by rw [included_none.2 hn] at h; cases h
    rw [overlap_raise]
    simp [this]

/-- The issues that a validator of lines can report. -/
theorem mem_nonEmpty {f : Field} {known : List I} {e : Event} : ∀ {k : Nat} {l : List (Line I)}, none ∉ l →
    (e ∈ nonEmpty f known k l ↔ ∃ n m, l[n]? = some (some m) ∧ known.any m.fits = false ∧
      e = .issue f (some (k + n)) .advice) := by
  intro k l
  induction l generalizing k with
  | nil => simp [nonEmpty]
  | cons x l ih =>
    intro hn
    simp only [List.mem_cons, not_or] at hn
    cases x with
    | none => exact absurd rfl hn.1
    | some m =>
      unfold nonEmpty
      rw [List.mem_append, ih hn.2]
      constructor
      · rintro (h | ⟨n, m', h1, h2, rfl⟩)
        · split at h
          · cases h
          · next ha =>
            simp only [List.mem_singleton] at h
            exact ⟨0, m, rfl, by simpa using ha, h⟩
        · exact ⟨n + 1, m', h1, h2, by rw [Nat.add_assoc, Nat.add_comm 1]⟩
      · rintro ⟨n, m', h1, h2, rfl⟩
        cases n with
        | zero =>
          simp only [List.getElem?_cons_zero, Option.some.injEq] at h1
          subst h1
          left
          rw [if_neg (by simp [h2])]
          simp
        | succ n =>
          right
          exact ⟨n, m', h1, h2, by rw [Nat.add_assoc, Nat.add_comm 1]⟩

theorem mem_overlap {f : Field} {inc : List I} {e : Event} : ∀ {k : Nat} {l : List (Line I)}, none ∉ l →
    (e ∈ overlap f inc k l ↔ ∃ n m, l[n]? = some (some m) ∧ inc.any m.fits = true ∧
      e = .issue f (some (k + n)) .warning) := by
  intro k l
  induction l generalizing k with
  | nil => simp [overlap]
  | cons x l ih =>
    intro hn
    simp only [List.mem_cons, not_or] at hn
    cases x with
    | none => exact absurd rfl hn.1
    | some m =>
      unfold overlap
      rw [List.mem_append, ih hn.2]
      constructor
      · rintro (h | ⟨n, m', h1, h2, rfl⟩)
        · split at h
          · next ha =>
            simp only [List.mem_singleton] at h
            exact ⟨0, m, rfl, ha, h⟩
          · cases h
        · exact ⟨n + 1, m', h1, h2, by rw [Nat.add_assoc, Nat.add_comm 1]⟩
      · rintro ⟨n, m', h1, h2, rfl⟩
        cases n with
        | zero =>
          simp only [List.getElem?_cons_zero, Option.some.injEq] at h1
          subst h1
          left
          rw [if_pos h2]
          simp
        | succ n =>
          right
          exact ⟨n, m', h1, h2, by rw [Nat.add_assoc, Nat.add_comm 1]⟩

theorem mem_noBase {f : Field} {known : List I} {p : Plan I} {l : List (Line I)} {e : Event} (h1 : none ∉ p.incl)
    (h2 : none ∉ l) : e ∈ noBase f known p l ↔ ∃ n m, l[n]? = some (some m) ∧
      (∃ i ∈ known, m.fits i = true ∧ ∃ m', some m' ∈ p.incl ∧ m'.fits i = true) ∧ e = .issue f (some n) .warning := by
  unfold noBase
  split
  · next h => exact absurd (included_none.1 h) h1
  · next inc h =>
    rw [mem_overlap h2]
    simp only [Nat.zero_add]
    constructor
    · rintro ⟨n, m, a, b, c⟩
      obtain ⟨i, hi, hf⟩ := List.any_eq_true.1 b
      obtain ⟨hk, m', hm'⟩ := (mem_included h).1 hi
      exact ⟨n, m, a, ⟨i, hk, hf, m', hm'⟩, c⟩
    · rintro ⟨n, m, a, ⟨i, hk, hf, m', hm'⟩, c⟩
      exact ⟨n, m, a, List.any_eq_true.2 ⟨i, (mem_included h).2 ⟨hk, m', hm'⟩, hf⟩, c⟩

theorem filter_only {ctx : List (Unit' I)} {i : I} {u : Unit' I} :
    (ctx.filter fun v => decide (v.id = some (some i))) = [u] ↔ Only ctx i u := by
  constructor
  · intro h
    induction ctx with
    | nil => simp at h
    | cons v ctx ih =>
      by_cases hv : v.id = some (some i)
      · rw [List.filter_cons_of_pos (by simpa using hv)] at h
        simp only [List.cons.injEq, List.filter_eq_nil_iff] at h
        obtain ⟨rfl, h⟩ := h
        exact ⟨[], ctx, rfl, hv, fun w hw => by simpa using h w hw⟩
      · rw [List.filter_cons_of_neg (by simpa using hv)] at h
        obtain ⟨a, b, rfl, h1, h2⟩ := ih h
        refine ⟨v :: a, b, rfl, h1, fun w hw => ?_⟩
        rcases List.mem_cons.1 hw with rfl | hw
        · exact hv
        · exact h2 w hw
  · rintro ⟨a, b, rfl, h1, h2⟩
    rw [List.filter_append, List.filter_cons_of_pos (by simpa using h1),
      List.filter_eq_nil_iff.2 (fun w hw => by simpa using h2 w (List.mem_append_left _ hw)),
      List.filter_eq_nil_iff.2 (fun w hw => by simpa using h2 w (List.mem_append_right _ hw))]
    rfl

theorem ref_raise {ctx : List (Unit' I)} {i : I} : Event.raise ∈ ref ctx i ↔ ∃ u, Only ctx i u ∧ u.kind ≠ .job := by
  unfold ref
  split
  · next h =>
    constructor
    · simp
    · rintro ⟨u, hu, -⟩
      rw [filter_only.2 hu] at h
      cases h
  · next v h =>
    constructor
    · intro hr
      refine ⟨v, filter_only.1 h, fun hk => ?_⟩
      rw [hk] at hr
      cases hv : v.resource <;> simp [hv] at hr
    · rintro ⟨u, hu, hk⟩
      rw [filter_only.2 hu] at h
      cases h
      simp [hk]
  · next h1 h2 =>
    constructor
    · simp
    · rintro ⟨u, hu, -⟩
      exact absurd (filter_only.2 hu) (h2 u)

theorem ref_issue {ctx : List (Unit' I)} {i : I} :
    Event.issue .boot none .error ∈ ref ctx i ↔ ¬ ∃ u, Only ctx i u ∧ u.kind = .job ∧ u.resource = true := by
  unfold ref
  split
  · next h =>
    simp only [List.mem_singleton, true_iff]
    rintro ⟨u, hu, -⟩
    rw [filter_only.2 hu] at h
    cases h
  · next v h =>
    constructor
    · rintro hr ⟨u, hu, hk, hv⟩
      rw [filter_only.2 hu] at h
      cases h
      simp [hk, hv] at hr
    · intro hn
      have hv : ¬ (v.kind = .job ∧ v.resource = true) := fun hv => hn ⟨v, filter_only.1 h, hv⟩
      by_cases hk : v.kind = .job
      · have : v.resource = false := by
          cases hr : v.resource
          · rfl
          · exact absurd ⟨hk, hr⟩ hv
        simp [hk, this]
      · simp [hk]
  · next h1 h2 =>
    simp only [List.mem_singleton, true_iff]
    rintro ⟨u, hu, -⟩
    exact h2 u (filter_only.2 hu)

theorem ref_only {ctx : List (Unit' I)} {i : I} {e : Event} (h : e ∈ ref ctx i) :
    e = .raise ∨ e = .issue .boot none .error := by
  unfold ref at h
  split at h
  · simp at h; exact .inr h
  · split at h
    · split at h <;> simp at h
      exact .inr h
    · simp at h
      rcases h with h | h
      · exact .inr h
      · exact .inl h
  · simp at h; exact .inr h

theorem refs_only {ctx : List (Unit' I)} {l : Option (List I)} {e : Event} (h : e ∈ refs ctx l) :
    e = .raise ∨ e = .issue .boot none .error := by
  cases l with
  | none => simp [refs] at h; exact .inr h
  | some l =>
    simp only [refs, List.mem_flatMap] at h
    obtain ⟨i, -, h⟩ := h
    exact ref_only h

/-! ## Theorems -/

/-- Validation ends with an exception exactly if a line cannot be read or `bootstrap_include` names a unit that is
not a job. -/
theorem C91_ends (ctx : List (Unit' I)) (p : Plan I) :
    Ends ctx p ↔ (∀ f, none ∉ p.lines f) ∧ ∀ l, p.bootIds = some l → ∀ i ∈ l, ∀ u, Only ctx i u → u.kind = .job := by
  have hr : Event.raise ∈ refs ctx p.bootIds ↔ ∃ l, p.bootIds = some l ∧ ∃ i ∈ l, ∃ u, Only ctx i u ∧ u.kind ≠ .job := by
    cases h : p.bootIds with
    | none => simp [refs]
    | some l =>
      simp only [refs, List.mem_flatMap, ref_raise, Option.some.injEq]
      constructor
      · rintro ⟨i, hi, hx⟩; exact ⟨l, rfl, i, hi, hx⟩
      · rintro ⟨_, rfl, i, hi, hx⟩; exact ⟨i, hi, hx⟩
  unfold Ends check
  dsimp only
  rw [cut_raise]
  simp only [List.mem_append, nonEmpty_raise, noBase_raise, hr]
  constructor
  · intro h
    refine ⟨fun f hf => h ?_, fun l hl i hi u hu => ?_⟩
    · cases f <;> simp only [Plan.lines] at hf <;> simp [hf]
    · by_cases hk : u.kind = .job
      · exact hk
      · exact absurd (.inl (.inl (.inl (.inl (.inl (.inr ⟨l, hl, i, hi, u, hu, hk⟩)))))) h
  · rintro ⟨h1, h2⟩ h
    have a1 := h1 .incl
    have a2 := h1 .mand
    have a3 := h1 .boot
    have a4 := h1 .excl
    have a5 := h1 .nested
    simp only [Plan.lines] at a1 a2 a3 a4 a5
    simp only [a1, a2, a3, a4, a5, or_self, or_false, false_or] at h
    obtain ⟨l, hl, i, hi, u, hu, hk⟩ := h
    exact hk (h2 l hl i hi u hu)

/-- All issues, of a validation that comes to its end. -/
theorem mem_check {ctx : List (Unit' I)} {p : Plan I} (h : Ends ctx p) (e : Event) :
    e ∈ check ctx p ↔ e ∈ noBase .boot (ids ctx) p p.boot ∨ e ∈ refs ctx p.bootIds ∨
      e ∈ nonEmpty .excl (ids ctx) 0 p.excl ∨ e ∈ nonEmpty .incl (ids ctx) 0 p.incl ∨
      e ∈ nonEmpty .mand (ids ctx) 0 p.mand ∨ e ∈ noBase .mand (ids ctx) p p.mand ∨
      e ∈ nonEmpty .nested (ids ctx) 0 p.nested := by
  unfold Ends check at h
  dsimp only at h
  rw [cut_raise] at h
  unfold check
  dsimp only
  rw [cut_id h]
  simp only [List.mem_append, or_assoc]

theorem not_fits {ctx : List (Unit' I)} {m : Matcher I} :
    (ids ctx).any m.fits = false ↔ ∀ i, Known ctx i → m.fits i = false := by
  rw [List.any_eq_false]
  constructor
  · intro h i hi
    simpa using h i (mem_ids.2 hi)
  · intro h i hi
    simpa using h i (mem_ids.1 hi)

/-- A line of `include`, `exclude`, `mandatory_include` or `nested_part` is reported exactly if it matches the identifier
of no unit at all. -/
theorem C91_dead (ctx : List (Unit' I)) (p : Plan I) (h : Ends ctx p) (f : Field) (hf : f ≠ .boot) (n : Nat)
    (m : Matcher I) (hm : (p.lines f)[n]? = some (some m)) :
    Reported ctx p f n .advice ↔ ∀ i, Known ctx i → m.fits i = false := by
  have hl := ((C91_ends ctx p).1 h).1
  have l1 : none ∉ p.incl := hl .incl
  have l2 : none ∉ p.mand := hl .mand
  have l3 : none ∉ p.boot := hl .boot
  have l4 : none ∉ p.excl := hl .excl
  have l5 : none ∉ p.nested := hl .nested
  have key : ∀ (g : Field) (l : List (Line I)), none ∉ l → (Event.issue f (some n) .advice ∈
      nonEmpty g (ids ctx) 0 l ↔ g = f ∧ ∃ m', l[n]? = some (some m') ∧ (ids ctx).any m'.fits = false) := by
    intro g l hn
    rw [mem_nonEmpty hn]
    constructor
    · rintro ⟨n', m', a, b, c⟩
      simp only [Event.issue.injEq, Nat.zero_add, Option.some.injEq, and_true] at c
      obtain ⟨rfl, rfl⟩ := c
      exact ⟨rfl, m', a, b⟩
    · rintro ⟨rfl, m', a, b⟩
      exact ⟨n, m', a, b, by simp⟩
  have nob : ∀ (g : Field) (l : List (Line I)), none ∉ l → Event.issue f (some n) .advice ∉ noBase g (ids ctx) p l := by
    intro g l hn hmem
    obtain ⟨_, _, _, _, he⟩ := (mem_noBase (hl .incl) hn).1 hmem
    cases he
  have nor : Event.issue f (some n) .advice ∉ refs ctx p.bootIds := by
    intro hmem
    rcases refs_only hmem with he | he <;> cases he
  unfold Reported
  rw [mem_check h, key .excl _ l4, key .incl _ l1, key .mand _ l2, key .nested _ l5]
  have e1 := nob .boot _ (hl .boot)
  have e2 := nob .mand _ (hl .mand)
  simp only [Plan.lines] at e1 e2
  rw [← not_fits]
  simp only [e1, e2, nor, false_or]
  cases f with
  | boot => exact absurd rfl hf
  | _ => simp only [Plan.lines] at hm; simp [hm]

/-- A line of `mandatory_include` or `bootstrap_include` is reported exactly if it matches an identifier that a line of
`include` matches as well. -/
theorem C91_twice (ctx : List (Unit' I)) (p : Plan I) (h : Ends ctx p) (f : Field) (hf : f = .mand ∨ f = .boot) (n : Nat)
    (m : Matcher I) (hm : (p.lines f)[n]? = some (some m)) :
    Reported ctx p f n .warning ↔
      ∃ i, Known ctx i ∧ m.fits i = true ∧ ∃ m', some m' ∈ p.incl ∧ m'.fits i = true := by
  have hl := ((C91_ends ctx p).1 h).1
  have l1 : none ∉ p.incl := hl .incl
  have l2 : none ∉ p.mand := hl .mand
  have l3 : none ∉ p.boot := hl .boot
  have l4 : none ∉ p.excl := hl .excl
  have l5 : none ∉ p.nested := hl .nested
  have key : ∀ (g : Field) (l : List (Line I)), none ∉ l → (Event.issue f (some n) .warning ∈ noBase g (ids ctx) p l ↔
      g = f ∧ ∃ m', l[n]? = some (some m') ∧
        ∃ i ∈ ids ctx, m'.fits i = true ∧ ∃ m'', some m'' ∈ p.incl ∧ m''.fits i = true) := by
    intro g l hn
    rw [mem_noBase (hl .incl) hn]
    constructor
    · rintro ⟨n', m', a, b, c⟩
      simp only [Event.issue.injEq, Option.some.injEq, and_true] at c
      obtain ⟨rfl, rfl⟩ := c
      exact ⟨rfl, m', a, b⟩
    · rintro ⟨rfl, m', a, b⟩
      exact ⟨n, m', a, b, rfl⟩
  have non : ∀ (g : Field) (l : List (Line I)), none ∉ l → Event.issue f (some n) .warning ∉ nonEmpty g (ids ctx) 0 l := by
    intro g l hn hmem
    obtain ⟨_, _, _, _, he⟩ := (mem_nonEmpty hn).1 hmem
    cases he
  have nor : Event.issue f (some n) .warning ∉ refs ctx p.bootIds := by
    intro hmem
    rcases refs_only hmem with he | he <;> cases he
  have e1 := non .excl _ (hl .excl)
  have e2 := non .incl _ (hl .incl)
  have e3 := non .mand _ (hl .mand)
  have e4 := non .nested _ (hl .nested)
  simp only [Plan.lines] at e1 e2 e3 e4
  unfold Reported
  rw [mem_check h, key .boot _ l3, key .mand _ l2]
  simp only [e1, e2, e3, e4, nor, false_or, or_false]
  have fin : ∀ {q : Prop} {g : I → Prop}, (∃ i ∈ ids ctx, g i) ↔ ∃ i, Known ctx i ∧ g i := by
    intro _ g
    constructor
    · rintro ⟨i, a, b⟩; exact ⟨i, mem_ids.1 a, b⟩
    · rintro ⟨i, a, b⟩; exact ⟨i, mem_ids.2 a, b⟩
  rw [← fin (q := True)]
  rcases hf with rfl | rfl <;> simp only [Plan.lines] at hm <;> simp [hm]

/-- An error is reported for `bootstrap_include` exactly if the jobs to bootstrap cannot be told, or one of them is not
the identifier of exactly one unit, a resource job. -/
theorem C91_bootstrap (ctx : List (Unit' I)) (p : Plan I) (h : Ends ctx p) :
    Event.issue .boot none .error ∈ check ctx p ↔ p.bootIds = none ∨
      ∃ l, p.bootIds = some l ∧ ∃ i ∈ l, ¬ ∃ u, Only ctx i u ∧ u.kind = .job ∧ u.resource = true := by
  have hl := ((C91_ends ctx p).1 h).1
  have nob : ∀ (g : Field) (l : List (Line I)), none ∉ l → Event.issue .boot none .error ∉ noBase g (ids ctx) p l := by
    intro g l hn hmem
    obtain ⟨_, _, _, _, he⟩ := (mem_noBase (hl .incl) hn).1 hmem
    cases he
  have non : ∀ (g : Field) (l : List (Line I)), none ∉ l → Event.issue .boot none .error ∉ nonEmpty g (ids ctx) 0 l := by
    intro g l hn hmem
    obtain ⟨_, _, _, _, he⟩ := (mem_nonEmpty hn).1 hmem
    cases he
  have e1 := non .excl _ (hl .excl)
  have e2 := non .incl _ (hl .incl)
  have e3 := non .mand _ (hl .mand)
  have e4 := non .nested _ (hl .nested)
  have e5 := nob .boot _ (hl .boot)
  have e6 := nob .mand _ (hl .mand)
  simp only [Plan.lines] at e1 e2 e3 e4 e5 e6
  rw [mem_check h]
  simp only [e1, e2, e3, e4, e5, e6, false_or, or_false]
  cases hb : p.bootIds with
  | none => simp [refs]
  | some l =>
    simp only [refs, List.mem_flatMap, ref_issue, reduceCtorEq, false_or, Option.some.injEq]
    constructor
    · rintro ⟨i, hi, hx⟩; exact ⟨l, rfl, i, hi, hx⟩
    · rintro ⟨_, rfl, i, hi, hx⟩; exact ⟨i, hi, hx⟩

/-- If nothing is reported then every line of `include` selects a job. Partial: only if all units with an identifier
are jobs. -/
theorem C91_selects_partial (ctx : List (Unit' I)) (p : Plan I) (h : check ctx p = [])
    (hj : ∀ u ∈ ctx, ∀ i, u.id = some (some i) → u.kind = .job) :
    ∀ x ∈ p.incl, ∃ m, x = some m ∧ ∃ u ∈ ctx, ∃ i, u.id = some (some i) ∧ u.kind = .job ∧ m.fits i = true := by
  have he : Ends ctx p := by unfold Ends; rw [h]; simp
  intro x hx
  have hn := ((C91_ends ctx p).1 he).1 .incl
  cases x with
  | none => exact absurd hx hn
  | some m =>
    refine ⟨m, rfl, ?_⟩
    obtain ⟨n, hn'⟩ := List.getElem?_of_mem hx
    have := C91_dead ctx p he .incl (by simp) n m hn'
    unfold Reported at this
    rw [h] at this
    simp only [List.not_mem_nil, false_iff, Classical.not_forall, Bool.not_eq_false] at this
    obtain ⟨i, ⟨u, hu, hi⟩, hf⟩ := this
    exact ⟨u, hu, i, hi, hj u hu i hi, hf⟩

/-! ## Disagreements -/

/-- A plan without lines. -/
def blank : Plan Nat := ⟨[], [], [], [], [], some []⟩
/-- Jobs 1 and 2, a category 3, a resource job 4, a test plan 5. -/
def units : List (Unit' Nat) := [⟨some (some 1), .job, false⟩, ⟨some (some 2), .job, false⟩, ⟨some (some 3), .other, false⟩,
  ⟨some (some 4), .job, true⟩, ⟨some (some 5), .plan, false⟩, ⟨none, .other, false⟩]

/-- A line of `include` that names a unit that is not a job selects nothing, and nothing is reported. -/
theorem C91_selects_violated : ¬ ∀ (ctx : List (Unit' Nat)) (p : Plan Nat), check ctx p = [] →
    ∀ m, some m ∈ p.incl → ∃ u ∈ ctx, ∃ i, u.id = some (some i) ∧ u.kind = .job ∧ m.fits i = true := by
  intro h
  obtain ⟨u, hu, i, hi, hk, hf⟩ := h units { blank with incl := [some (.eq 3)] } (by decide) (.eq 3) (by simp)
  simp only [Matcher.fits, decide_eq_true_eq] at hf
  subst hf
  simp only [units, List.mem_cons, List.not_mem_nil, or_false] at hu
  rcases hu with rfl | rfl | rfl | rfl | rfl | rfl <;> simp at hi hk

/-- So does a line of `nested_part` that names a job. -/
theorem C91_nested_violated : ¬ ∀ (ctx : List (Unit' Nat)) (p : Plan Nat), check ctx p = [] →
    ∀ m, some m ∈ p.nested → ∃ u ∈ ctx, ∃ i, u.id = some (some i) ∧ u.kind = .plan ∧ m.fits i = true := by
  intro h
  obtain ⟨u, hu, i, hi, hk, hf⟩ := h units { blank with nested := [some (.eq 1)] } (by decide) (.eq 1) (by simp)
  simp only [Matcher.fits, decide_eq_true_eq] at hf
  subst hf
  simp only [units, List.mem_cons, List.not_mem_nil, or_false] at hu
  rcases hu with rfl | rfl | rfl | rfl | rfl | rfl <;> simp at hi hk

/-- A job that `exclude` takes out of `include` is reported as selected twice. -/
theorem C91_twice_violated : ¬ ∀ (ctx : List (Unit' Nat)) (p : Plan Nat) (n : Nat) (m : Matcher Nat),
    p.mand[n]? = some (some m) → Reported ctx p .mand n .warning →
    ∃ i, Known ctx i ∧ m.fits i = true ∧ (∃ m', some m' ∈ p.incl ∧ m'.fits i = true) ∧
      ∀ m', some m' ∈ p.excl → m'.fits i = false := by
  intro h
  obtain ⟨i, -, hf, -, hx⟩ := h units { blank with incl := [some (.pat fun _ => true)], mand := [some (.eq 1)], excl := [some (.eq 1)] }
    0 (.eq 1) rfl (by unfold Reported; decide)
  have := hx (.eq 1) (by simp)
  rw [this] at hf
  cases hf

/-- A line that cannot be read ends the validation, and the lines after it are not looked at. -/
theorem C91_bad_violated : ¬ ∀ (ctx : List (Unit' Nat)) (p : Plan Nat) (n : Nat) (m : Matcher Nat),
    p.incl[n]? = some (some m) → (∀ i, Known ctx i → m.fits i = false) → Reported ctx p .incl n .advice := by
  intro h
  have := h units { blank with incl := [some (.eq 9)], excl := [none] } 0 (.eq 9) rfl (by
    rintro i ⟨u, hu, hi⟩
    simp only [units, List.mem_cons, List.not_mem_nil, or_false] at hu
    rcases hu with rfl | rfl | rfl | rfl | rfl | rfl <;> simp at hi <;> subst hi <;> rfl)
  exact absurd this (by unfold Reported; decide)

/-- Naming in `bootstrap_include` a unit that is not a job ends the validation too, after the report. -/
theorem C91_bootstrap_violated : ¬ ∀ (ctx : List (Unit' Nat)) (p : Plan Nat), (∀ f, none ∉ p.lines f) → Ends ctx p := by
  intro h
  have := h units { blank with bootIds := some [3] } (by intro f; cases f <;> simp [Plan.lines, blank])
  exact absurd this (by unfold Ends; decide)

/-- Two nested parts in one line are found, but the validation takes them for a line of `include` and cannot read it. -/
theorem C91_words_violated : ¬ ∀ (kind : Words.Str → Words.ReKind) (text : Words.Str) (a b : Words.Str),
    Words.wordList 100 text = .ok [.text a, .text b] → ∃ x, Words.includeStmt kind text = .ok (.node x) := by
  intro h
  obtain ⟨x, hx⟩ := h (fun _ => .fixed) "a b".toList "a".toList "b".toList (by decide +kernel)
  have : (match Words.includeStmt (fun _ => .fixed) "a b".toList with | .ok (.node _) => true | _ => false) = false := by
    decide +kernel
  rw [hx] at this
  cases this

/-! ## The hypotheses are met -/

/-- A plan with a line that matches nothing, a job selected twice and a job to bootstrap that is not a resource job. -/
def exPlan : Plan Nat := ⟨[some (.pat fun i => decide (i < 3)), some (.eq 9)], [some (.eq 4), some (.eq 2)], [some (.eq 4)],
  [some (.eq 1)], [some (.eq 5)], some [4, 1]⟩

example : check units exPlan = [.issue .boot none .error, .issue .incl (some 1) .advice, .issue .mand (some 1) .warning] := by
  decide
example : Ends units exPlan := by unfold Ends; decide
example : check units { blank with incl := [some (.eq 1), some (.eq 2)] } = [] := by decide
example : check units { blank with incl := [some (.eq 9), none, some (.eq 8)] } = [.raise] := by decide
example : check units { blank with excl := [some (.eq 9), none, some (.eq 8)] } =
    [.issue .excl (some 0) .advice, .raise] := by decide
/-- An identifier of two units cannot be bootstrapped. -/
example : check (units ++ units) { blank with bootIds := some [4] } = [.issue .boot none .error] := by decide

end Verif.PlanCheck
