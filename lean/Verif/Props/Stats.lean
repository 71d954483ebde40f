import Verif.Model.Stats
import Verif.Lemmas.Session

/-! # Properties C11 and C47 -/

set_option linter.unusedSectionVars false
set_option linter.unusedSimpArgs false

namespace Verif.Stats

open Verif.Session (Outcome lookup_setKey setKey_keys lookup_isSome_iff)

variable {C : Type} [DecidableEq C]

/-- The rule of C11 for a collection of outcomes. -/
def Rule (os : List Outcome) (o : Outcome) : Prop :=
  ((∃ x ∈ os, x = .fail ∨ x = .crash) ∧ o = .fail) ∨
  ((¬ ∃ x ∈ os, x = .fail ∨ x = .crash) ∧ .pass ∈ os ∧ o = .pass) ∨
  ((¬ ∃ x ∈ os, x = .fail ∨ x = .crash) ∧ .pass ∉ os ∧ o = .skip)

theorem Rule.unique {os : List Outcome} {a b : Outcome} (ha : Rule os a) (hb : Rule os b) :
    a = b := by
  unfold Rule at ha hb
  grind

theorem Rule.perm {os os' : List Outcome} {a : Outcome} (h : os.Perm os') (ha : Rule os a) :
    Rule os' a := by
  unfold Rule at *
  simpa only [h.mem_iff] using ha

theorem merge_rule {os : List Outcome} {acc o : Outcome} (h : Rule os acc) :
    Rule (os ++ [o]) (merge acc o) := by
  unfold Rule at *
  unfold merge
  simp only [List.mem_append, List.mem_singleton]
  cases o <;> simp <;> grind

theorem rule_nil : Rule [] .skip := by simp [Rule]

/-- The outcomes that count for a global outcome. -/
def contributing (p : Plugin) (es : List (Entry C)) : List Outcome :=
  (es.filter fun e => e.plugin = p ∧ e.outcome ≠ .none).map (·.outcome)

theorem global_fold (p : Plugin) (es : List (Entry C)) (os : List Outcome) (acc : Outcome)
    (h : Rule os acc) :
    Rule (os ++ contributing p es)
      (es.foldl (fun acc e => if e.plugin ≠ p ∨ e.outcome = .none then acc
        else merge acc e.outcome) acc) := by
  induction es generalizing os acc with
  | nil => simpa [contributing] using h
  | cons e es ih =>
    simp only [List.foldl_cons, contributing, List.filter_cons]
    by_cases hc : e.plugin ≠ p ∨ e.outcome = .none
    · rw [if_pos hc]
      have : (decide (e.plugin = p ∧ e.outcome ≠ .none)) = false := by
        rw [decide_eq_false_iff_not]
        rintro ⟨h1, h2⟩
        rcases hc with hc | hc
        · exact hc h1
        · exact h2 hc
      rw [this]
      exact ih os acc h
    · rw [if_neg hc]
      have : (decide (e.plugin = p ∧ e.outcome ≠ .none)) = true := by
        rw [decide_eq_true_iff]
        exact ⟨by simpa using fun hx => hc (.inl hx), fun hx => hc (.inr hx)⟩
      rw [this]
      simp only [if_true, List.map_cons]
      have := ih (os ++ [e.outcome]) _ (merge_rule h (o := e.outcome))
      rw [List.append_assoc] at this
      exact this

/-- **C11** for resource and attachment jobs. -/
theorem C11_global_outcome (p : Plugin) (es : List (Entry C)) :
    Rule (contributing p es) (globalOutcome p es) ∧
    ∀ es', es'.Perm es → globalOutcome p es' = globalOutcome p es := by
  have h := fun l : List (Entry C) => global_fold p l [] .skip rule_nil
  refine ⟨h es, ?_⟩
  intro es' hp
  have h1 := h es'
  simp only [List.nil_append] at h1
  have hperm : (contributing p es').Perm (contributing p es) := (hp.filter _).map _
  have h2 := h es
  simp only [List.nil_append] at h2
  exact (h1.perm hperm).unique h2

/-- Outcomes of the jobs of a category. -/
def inCategory (c : C) (es : List (Entry C)) : List Outcome :=
  (es.filter fun e => e.category = c).map (·.outcome)

theorem category_fold (all : List (Entry C)) (c : C) (es done : List (Entry C))
    (m : List (C × Outcome))
    (h : match m.lookup c with
      | none => wanted all c = false ∨ inCategory c done = []
      | some o => wanted all c = true ∧ Rule (inCategory c done) o) :
    match (es.foldl (categoryStep all) m).lookup c with
    | none => wanted all c = false ∨ inCategory c (done ++ es) = []
    | some o => wanted all c = true ∧ Rule (inCategory c (done ++ es)) o := by
  induction es generalizing done m with
  | nil => simpa using h
  | cons e es ih =>
    simp only [List.foldl_cons]
    have hd : done ++ e :: es = (done ++ [e]) ++ es := by simp
    rw [hd]
    apply ih
    unfold categoryStep
    by_cases hc : e.category = c
    · have hin : inCategory c (done ++ [e]) = inCategory c done ++ [e.outcome] := by
        simp [inCategory, hc]
      rw [hc, hin]
      cases hw : wanted all c with
      | false =>
        simp only [Bool.false_eq_true, if_false]
        cases hl : m.lookup c with
        | none => simp
        | some o => simp [hl, hw] at h
      | true =>
        simp only [if_true]
        rw [lookup_setKey, if_pos rfl]
        simp only [true_and]
        cases hl : m.lookup c with
        | none =>
          simp only [hl, hw, Bool.true_eq_false, false_or] at h
          rw [h]
          exact merge_rule rule_nil
        | some o =>
          simp only [hl, hw, true_and] at h
          exact merge_rule h
    · have hin : inCategory c (done ++ [e]) = inCategory c done := by
        simp [inCategory, hc]
      rw [hin]
      by_cases hw : wanted all e.category = true
      · rw [if_pos hw, lookup_setKey, if_neg (fun hx => hc hx.symm)]
        exact h
      · rw [if_neg hw]
        exact h

/-- **C11** for categories: a category is listed exactly when some job of it has an outcome; its
outcome follows the rule over all its jobs; the order of the jobs does not matter. -/
theorem C11_category_outcome (es : List (Entry C)) (c : C) :
    ((categoryOutcomeMap es).lookup c = none ↔
      ∀ e ∈ es, e.category = c → e.outcome = .none) ∧
    (∀ o, (categoryOutcomeMap es).lookup c = some o → Rule (inCategory c es) o) ∧
    ∀ es', es'.Perm es → (categoryOutcomeMap es').lookup c = (categoryOutcomeMap es).lookup c := by
  have key := fun (l : List (Entry C)) => category_fold l c l [] [] (by simp [inCategory])
  simp only [List.nil_append] at key
  have hwant : ∀ l : List (Entry C), wanted l c = false ↔
      ∀ e ∈ l, e.category = c → e.outcome = .none := by
    intro l
    simp only [wanted, List.any_eq_false, decide_eq_true_eq, not_and, not_not, ne_eq]
  have hnone : ∀ l : List (Entry C), (categoryOutcomeMap l).lookup c = none ↔
      ∀ e ∈ l, e.category = c → e.outcome = .none := by
    intro l
    have hk := key l
    rw [← hwant l]
    unfold categoryOutcomeMap
    cases hl : (l.foldl (categoryStep l) []).lookup c with
    | none =>
      simp only [hl] at hk
      simp only [true_iff]
      rcases hk with hk | hk
      · exact hk
      · rw [hwant]
        intro e he hec
        exfalso
        have : e.outcome ∈ inCategory c l :=
          List.mem_map.mpr ⟨e, List.mem_filter.mpr ⟨he, by simp [hec]⟩, rfl⟩
        rw [hk] at this
        simp at this
    | some o =>
      simp only [hl] at hk
      simp [hk.1]
  have hsome : ∀ (l : List (Entry C)) o, (categoryOutcomeMap l).lookup c = some o →
      Rule (inCategory c l) o := by
    intro l o ho
    have hk := key l
    unfold categoryOutcomeMap at ho
    simp only [ho] at hk
    exact hk.2
  refine ⟨hnone es, hsome es, ?_⟩
  intro es' hp
  have hpc : (inCategory c es').Perm (inCategory c es) := (hp.filter _).map _
  cases h1 : (categoryOutcomeMap es').lookup c with
  | none =>
    symm
    rw [hnone] at h1 ⊢
    exact fun e he => h1 e (hp.mem_iff.mpr he)
  | some o' =>
    cases h2 : (categoryOutcomeMap es).lookup c with
    | none =>
      rw [hnone] at h2
      have : (categoryOutcomeMap es').lookup c = none :=
        (hnone es').mpr fun e he => h2 e (hp.mem_iff.mp he)
      rw [this] at h1
      simp at h1
    | some o =>
      rw [((hsome es' o' h1).perm hpc).unique (hsome es o h2)]

/-- Number of jobs with an outcome. -/
def countOf (o : Outcome) (es : List (Entry C)) : Nat := es.countP fun e => e.outcome = o

theorem stats_fold (es : List (Entry C)) (m : List (Outcome × Nat)) (o : Outcome) (ho : o ≠ .none) :
    ((es.foldl (fun m e => if e.outcome = .none then m else bump m e.outcome) m).lookup o).getD 0 =
      (m.lookup o).getD 0 + countOf o es := by
  induction es generalizing m with
  | nil => simp [countOf]
  | cons e es ih =>
    simp only [List.foldl_cons, countOf, List.countP_cons]
    rw [ih]
    by_cases hn : e.outcome = .none
    · rw [if_pos hn]
      have : ¬ e.outcome = o := by rw [hn]; exact fun h => ho h.symm
      simp [countOf, this]
    · rw [if_neg hn]
      unfold bump
      rw [lookup_setKey]
      by_cases heq : o = e.outcome
      · subst heq; simp [countOf]; omega
      · rw [if_neg heq]
        have : ¬ e.outcome = o := fun h => heq h.symm
        simp [countOf, this]

/-- **C11** for statistics: for each outcome the number reported is the number of jobs with it, each
job is counted under exactly one outcome, jobs without an outcome are not counted, and the order of
jobs does not matter. -/
theorem C11_outcome_stats (es : List (Entry C)) :
    (∀ o, o ≠ .none → ((outcomeStats es).lookup o).getD 0 = countOf o es) ∧
    (outcomeStats es).lookup .none = none ∧
    (([Outcome.pass, .fail, .skip, .notSupported, .notImplemented, .undecided, .crash].map
      fun o => ((outcomeStats es).lookup o).getD 0).sum + countOf .none es = es.length) ∧
    ∀ es', es'.Perm es → ∀ o, o ≠ .none →
      ((outcomeStats es').lookup o).getD 0 = ((outcomeStats es).lookup o).getD 0 := by
  have h1 : ∀ (l : List (Entry C)) o, o ≠ .none →
      ((outcomeStats l).lookup o).getD 0 = countOf o l := by
    intro l o ho
    unfold outcomeStats
    rw [stats_fold l [] o ho]
    simp
  refine ⟨h1 es, ?_, ?_, ?_⟩
  · have : ∀ (l : List (Entry C)) (m : List (Outcome × Nat)), m.lookup .none = none →
        (l.foldl (fun m e => if e.outcome = .none then m else bump m e.outcome) m).lookup .none
          = none := by
      intro l
      induction l with
      | nil => intro m h; exact h
      | cons e l ih =>
        intro m h
        simp only [List.foldl_cons]
        apply ih
        split
        · exact h
        · rename_i hn
          unfold bump
          rw [lookup_setKey, if_neg (fun hx => hn hx.symm)]
          exact h
    exact this es [] rfl
  · simp only [List.map_cons, List.map_nil, List.sum_cons, List.sum_nil]
    rw [h1 es _ (by simp), h1 es _ (by simp), h1 es _ (by simp), h1 es _ (by simp),
      h1 es _ (by simp), h1 es _ (by simp), h1 es _ (by simp)]
    induction es with
    | nil => simp [countOf]
    | cons e es ih =>
      simp only [countOf, List.countP_cons, List.length_cons] at ih ⊢
      cases e.outcome <;> simp <;> omega
  · intro es' hp o ho
    rw [h1 es' o ho, h1 es o ho]
    exact hp.countP_eq _

/-! ## C47 -/

/-- The sum, in order, of what the jobs contribute; nothing if some job contributes nothing. -/
def total {A : Type} [Add A] (zero : A) : List (Option A) → Option A
  | [] => some zero
  | l => if l.all Option.isSome then some ((l.filterMap id).foldl (· + ·) zero) else none

/-- Contribution of an automated job. -/
def autoPart {A : Type} (j : DurJob A) : List (Option A) := if j.automated then [j.estimate] else []

/-- Contributions of a manual job: the fixed overhead, and its estimate; a manual job without a
command needs no estimate. -/
def manualPart {A : Type} (overhead : A) (j : DurJob A) : List (Option A) :=
  if j.automated then [] else
    match j.estimate with
    | some d => [some overhead, some d]
    | none => if j.hasCommand then [some overhead, none] else [some overhead]

theorem total_eq {A : Type} [Add A] (zero : A) (l : List (Option A)) :
    total zero l = if l.all Option.isSome then some ((l.filterMap id).foldl (· + ·) zero)
      else none := by
  cases l <;> rfl

theorem total_append {A : Type} [Add A] (zero : A) (l k : List (Option A)) :
    total zero (l ++ k) = (total zero l).bind fun a => total a k := by
  rw [total_eq, total_eq]
  simp only [List.all_append, List.filterMap_append, List.foldl_append]
  cases h1 : l.all Option.isSome with
  | false => simp
  | true =>
    simp only [Bool.true_and, if_true, Option.bind_some]
    rw [total_eq]

/-- **C47**, first half.  For any numbers (in particular floats, whose addition depends on the
order) both figures are the sums, in run-list order, of what the jobs contribute, or nothing when
some contribution is unknown. -/
theorem C47_estimated_duration_partial {A : Type} [Add A] (zero overhead : A) (run : List (DurJob A)) :
    estimatedDuration zero overhead run =
      (total zero (run.flatMap autoPart), total zero (run.flatMap (manualPart overhead))) := by
  unfold estimatedDuration
  have key : ∀ (l : List (DurJob A)) (a m : Option A),
      l.foldl (fun (acc : Option A × Option A) j =>
        if j.automated then
          match acc.1 with
          | none => acc
          | some a =>
            match j.estimate with
            | some d => (some (a + d), acc.2)
            | none => (none, acc.2)
        else
          match acc.2 with
          | none => acc
          | some m =>
            match j.estimate with
            | some d => (acc.1, some (m + overhead + d))
            | none => if j.hasCommand then (acc.1, none) else (acc.1, some (m + overhead))) (a, m) =
      (a.bind fun x => total x (l.flatMap autoPart),
       m.bind fun x => total x (l.flatMap (manualPart overhead))) := by
    intro l
    induction l with
    | nil => intro a m; cases a <;> cases m <;> rfl
    | cons j l ih =>
      intro a m
      simp only [List.foldl_cons, List.flatMap_cons]
      rw [ih]
      cases a <;> cases m <;> cases h1 : j.automated <;> cases h2 : j.estimate <;>
        cases h3 : j.hasCommand <;>
        simp [autoPart, manualPart, h1, h2, h3, total_append, total_eq] <;> rfl
  exact key run (some zero) (some zero)

/-- **C47** is false as stated for manual jobs without a command: such a job has no estimate and yet
a figure is reported (state.py:976-979). -/
theorem C47_violated : ∃ run : List (DurJob Nat), (∃ j ∈ run, j.automated = false ∧
    j.estimate = none) ∧ (estimatedDuration 0 30 run).2 ≠ none :=
  ⟨[⟨false, none, false⟩], by simp, by decide⟩

/-- A text is a duration with hours `h`, minutes `m`, seconds `s` (each optional). -/
structure DurationText (l : List Char) (h m s : Option (List Char)) : Prop where
  shape : ∃ s1 s2 nl, (∀ c ∈ s1, c = ' ' ∨ c = ':') ∧ (∀ c ∈ s2, c = ' ' ∨ c = ':') ∧
    (nl = [] ∨ nl = ['\n']) ∧
    l = (h.map (· ++ ['h'])).getD [] ++ s1 ++ (m.map (· ++ ['m'])).getD [] ++ s2 ++
      (s.map (· ++ ['s'])).getD [] ++ nl
  digits : ∀ g ∈ [h, m, s], ∀ ds, g = some ds → ds ≠ [] ∧ ∀ c ∈ ds, c.isDigit = true

theorem mem_takeWhile {α : Type} {p : α → Bool} {l : List α} {x : α} (h : x ∈ l.takeWhile p) :
    p x = true := by
  induction l with
  | nil => simp at h
  | cons a l ih =>
    rw [List.takeWhile_cons] at h
    split at h
    · rcases List.mem_cons.mp h with rfl | h
      · assumption
      · exact ih h
    · simp at h

theorem takeWhile_append_stop {α : Type} (p : α → Bool) (ds rest : List α)
    (h1 : ∀ c ∈ ds, p c = true) (h2 : ∀ c r, rest = c :: r → p c = false) :
    (ds ++ rest).takeWhile p = ds ∧ (ds ++ rest).dropWhile p = rest := by
  induction ds with
  | nil =>
    cases rest with
    | nil => simp
    | cons c r => simp [h2 c r rfl]
  | cons d ds ih =>
    have := ih (fun c hc => h1 c (by simp [hc]))
    simp [h1 d (by simp), this]

theorem group_some {c : Char} (hc : c.isDigit = false) {ds rest : List Char} (hne : ds ≠ [])
    (hd : ∀ x ∈ ds, x.isDigit = true) : group c (ds ++ c :: rest) = (some ds, rest) := by
  obtain ⟨h1, h2⟩ := takeWhile_append_stop Char.isDigit ds (c :: rest) hd (by
    intro x r h; simp only [List.cons.injEq] at h; rw [← h.1]; exact hc)
  unfold group
  rw [h1, h2]
  cases ds with
  | nil => exact absurd rfl hne
  | cons d ds => simp

/-- `group c` skips a text that starts with digits followed by something else than `c`, or that
does not start with a digit. -/
theorem group_none {c : Char} {ds rest : List Char}
    (hd : ∀ x ∈ ds, x.isDigit = true) (hr : ∀ x r, rest = x :: r → x.isDigit = false ∧
      (ds = [] ∨ x ≠ c)) : group c (ds ++ rest) = (none, ds ++ rest) := by
  obtain ⟨h1, h2⟩ := takeWhile_append_stop Char.isDigit ds rest hd (fun x r h => (hr x r h).1)
  unfold group
  rw [h1, h2]
  cases ds with
  | nil => simp
  | cons d ds =>
    cases rest with
    | nil => simp
    | cons x r =>
      have := (hr x r rfl).2
      simp at this
      simp [this]

theorem group_inv {c : Char} {l : List Char} {ds rest : List Char}
    (h : group c l = (some ds, rest)) :
    l = ds ++ c :: rest ∧ ds ≠ [] ∧ ∀ x ∈ ds, x.isDigit = true := by
  unfold group at h
  split at h
  · rename_i d ds' x r h1 h2
    split at h
    · rename_i hx
      simp only [Prod.mk.injEq, Option.some.injEq] at h
      refine ⟨?_, by rw [← h.1]; simp, ?_⟩
      · rw [← List.takeWhile_append_dropWhile (p := Char.isDigit) (l := l), h1, h2, hx, h.2, h.1]
      · intro y hy
        rw [← h.1, ← h1] at hy
        exact (mem_takeWhile hy)
    · simp at h
  · simp at h

theorem group_none_inv {c : Char} {l rest : List Char}
    (h : group c l = (none, rest)) : l = rest := by
  unfold group at h
  split at h
  · split at h <;> simp_all
  · simp_all

theorem dropSep {s rest : List Char} (hs : ∀ c ∈ s, c = ' ' ∨ c = ':')
    (hr : ∀ x r, rest = x :: r → isSep x = false) : (s ++ rest).dropWhile isSep = rest := by
  exact (takeWhile_append_stop isSep s rest (by
    intro c hc
    rcases hs c hc with rfl | rfl <;> decide) hr).2

theorem digit_not_sep {c : Char} (h : c.isDigit = true) : isSep c = false := by
  unfold isSep
  rw [Bool.or_eq_false_iff]
  constructor <;> rw [decide_eq_false_iff_not] <;> rintro rfl <;> revert h <;> decide

theorem sep_not_digit {c : Char} (h : c = ' ' ∨ c = ':') : c.isDigit = false := by
  rcases h with rfl | rfl <;> decide

/-- First character of an optional group followed by more text. -/
theorem group_head {g : Option (List Char)} {c : Char} {rest : List Char}
    (hd : ∀ ds, g = some ds → ds ≠ [] ∧ ∀ x ∈ ds, x.isDigit = true) {x : Char} {r : List Char}
    (h : (g.map (· ++ [c])).getD [] ++ rest = x :: r) : x.isDigit = true ∨ rest = x :: r := by
  cases g with
  | none => exact .inr (by simpa using h)
  | some ds =>
    obtain ⟨h1, h2⟩ := hd ds rfl
    cases ds with
    | nil => exact absurd rfl h1
    | cons d ds =>
      simp at h
      exact .inl (h.1 ▸ h2 d (by simp))

/-- **C47**, second half.  A text of the documented form parses to hours·3600 + minutes·60 +
seconds, and nothing else is accepted by the textual branch. -/
theorem C47_duration_text (l : List Char) :
    (∀ h m s, DurationText l h m s →
      parseDuration l = some (groupVal h * 3600 + groupVal m * 60 + groupVal s)) ∧
    (∀ n, parseDuration l = some n → ∃ h m s, DurationText l h m s ∧
      n = groupVal h * 3600 + groupVal m * 60 + groupVal s) := by
  constructor
  · rintro h m s ⟨⟨s1, s2, nl, hs1, hs2, hnl, rfl⟩, hd⟩
    have hh := hd h (by simp)
    have hm := hd m (by simp)
    have hs := hd s (by simp)
    have nlhead : ∀ x r, nl = x :: r → x = '\n' := by
      intro x r hx
      rcases hnl with rfl | rfl
      · simp at hx
      · simp only [List.cons.injEq] at hx
        exact hx.1.symm
    -- the seconds
    have e3 : group 's' ((s.map (· ++ ['s'])).getD [] ++ nl) = (s, nl) := by
      cases s with
      | none =>
        have := group_none (c := 's') (ds := []) (rest := nl) (by simp) (by
          intro x r hx; rw [nlhead x r hx]; exact ⟨by decide, .inl rfl⟩)
        simpa using this
      | some ds =>
        have := group_some (c := 's') (by decide) (rest := nl) (hs ds rfl).1 (hs ds rfl).2
        simpa using this
    have h3 : ∀ x r, (s.map (· ++ ['s'])).getD [] ++ nl = x :: r → isSep x = false := by
      intro x r hx
      rcases group_head hs hx with h' | h'
      · exact digit_not_sep h'
      · rw [nlhead x r h']; decide
    have d2 : (s2 ++ ((s.map (· ++ ['s'])).getD [] ++ nl)).dropWhile isSep =
        (s.map (· ++ ['s'])).getD [] ++ nl := dropSep hs2 h3
    -- skipping an absent group in front of separators and later groups
    have skip : ∀ (c c' : Char) (hcc : c ≠ c') (hcd : c'.isDigit = false) (hcn : c ≠ '\n')
        (sep : List Char) (hsep : ∀ c ∈ sep, c = ' ' ∨ c = ':') (g : Option (List Char))
        (hg : ∀ ds, g = some ds → ds ≠ [] ∧ ∀ x ∈ ds, x.isDigit = true) (tail : List Char)
        (htail : group c tail = (none, tail)),
        group c (sep ++ ((g.map (· ++ [c'])).getD [] ++ tail)) =
          (none, sep ++ ((g.map (· ++ [c'])).getD [] ++ tail)) := by
      intro c c' hcc hcd hcn sep hsep g hg tail htail
      cases sep with
      | cons x sep =>
        have := group_none (c := c) (ds := [])
          (rest := (x :: sep) ++ ((g.map (· ++ [c'])).getD [] ++ tail)) (by simp) (by
            intro y r hy
            simp only [List.cons_append, List.cons.injEq] at hy
            rw [← hy.1]
            exact ⟨sep_not_digit (hsep x (by simp)), .inl rfl⟩)
        simpa using this
      | nil =>
        cases g with
        | none => simpa using htail
        | some ds =>
          have := group_none (c := c) (ds := ds) (rest := c' :: tail) (hg ds rfl).2 (by
            intro y r hy
            simp only [List.cons.injEq] at hy
            rw [← hy.1]
            exact ⟨hcd, .inr (fun hx => hcc hx.symm)⟩)
          simpa using this
    have nlskip : ∀ c, group c nl = (none, nl) := by
      intro c
      have := group_none (c := c) (ds := []) (rest := nl) (by simp) (by
          intro x r hx; rw [nlhead x r hx]; exact ⟨by decide, .inl rfl⟩)
      simpa using this
    have sskip : ∀ c, c ≠ 's' → c ≠ '\n' →
        group c (s2 ++ ((s.map (· ++ ['s'])).getD [] ++ nl)) =
        (none, s2 ++ ((s.map (· ++ ['s'])).getD [] ++ nl)) := fun c h1 h2 =>
      skip c 's' h1 (by decide) h2 s2 hs2 s hs nl (nlskip c)
    -- the minutes
    have e2 : group 'm' ((m.map (· ++ ['m'])).getD [] ++
        (s2 ++ ((s.map (· ++ ['s'])).getD [] ++ nl))) =
        (m, s2 ++ ((s.map (· ++ ['s'])).getD [] ++ nl)) ∨
        (m = none ∧ group 'm' ((s2 ++ ((s.map (· ++ ['s'])).getD [] ++ nl)).dropWhile isSep) =
          (none, (s2 ++ ((s.map (· ++ ['s'])).getD [] ++ nl)).dropWhile isSep)) := by
      cases m with
      | none =>
        right
        refine ⟨rfl, ?_⟩
        rw [d2]
        have := skip 'm' 's' (by decide) (by decide) (by decide) [] (by simp) s hs nl (nlskip 'm')
        simpa using this
      | some ds =>
        left
        have := group_some (c := 'm') (by decide)
          (rest := s2 ++ ((s.map (· ++ ['s'])).getD [] ++ nl)) (hm ds rfl).1 (hm ds rfl).2
        simpa using this
    -- the hours
    have e1 : group 'h' ((h.map (· ++ ['h'])).getD [] ++ (s1 ++ ((m.map (· ++ ['m'])).getD [] ++
        (s2 ++ ((s.map (· ++ ['s'])).getD [] ++ nl))))) =
        (h, s1 ++ ((m.map (· ++ ['m'])).getD [] ++
        (s2 ++ ((s.map (· ++ ['s'])).getD [] ++ nl)))) := by
      cases h with
      | none =>
        have := skip 'h' 'm' (by decide) (by decide) (by decide) s1 hs1 m hm _
          (sskip 'h' (by decide) (by decide))
        simpa using this
      | some ds =>
        have := group_some (c := 'h') (by decide)
          (rest := s1 ++ ((m.map (· ++ ['m'])).getD [] ++
            (s2 ++ ((s.map (· ++ ['s'])).getD [] ++ nl)))) (hh ds rfl).1 (hh ds rfl).2
        simpa using this
    have final : ∀ (l3 : List Char), l3 = nl → (if l3 = [] ∨ l3 = ['\n'] then
        some (groupVal s + groupVal m * 60 + groupVal h * 3600) else none) =
        some (groupVal h * 3600 + groupVal m * 60 + groupVal s) := by
      intro l3 hl3
      rw [hl3, if_pos hnl]
      congr 1
      omega
    unfold parseDuration
    simp only [List.append_assoc]
    rw [e1]
    simp only
    cases m with
    | some ds =>
      have d1 : (s1 ++ (((some ds).map (· ++ ['m'])).getD [] ++
          (s2 ++ ((s.map (· ++ ['s'])).getD [] ++ nl)))).dropWhile isSep =
          ((some ds).map (· ++ ['m'])).getD [] ++
          (s2 ++ ((s.map (· ++ ['s'])).getD [] ++ nl)) := by
        apply dropSep hs1
        intro x r hx
        cases ds with
        | nil => exact absurd rfl (hm _ rfl).1
        | cons d ds =>
          simp at hx
          rw [← hx.1]
          exact digit_not_sep ((hm _ rfl).2 d (by simp))
      rw [d1]
      rcases e2 with e2 | ⟨e2, _⟩
      · rw [e2]
        simp only
        rw [d2, e3]
        exact final nl rfl
      · simp at e2
    | none =>
      have d1 : (s1 ++ (((none : Option (List Char)).map (· ++ ['m'])).getD [] ++
          (s2 ++ ((s.map (· ++ ['s'])).getD [] ++ nl)))).dropWhile isSep =
          (s.map (· ++ ['s'])).getD [] ++ nl := by
        have := dropSep (s := s1 ++ s2) (by
          intro c hc
          rcases List.mem_append.mp hc with hc | hc
          · exact hs1 c hc
          · exact hs2 c hc) h3
        simpa using this
      rw [d1]
      have e2' : group 'm' ((s.map (· ++ ['s'])).getD [] ++ nl) =
          (none, (s.map (· ++ ['s'])).getD [] ++ nl) := by
        have := skip 'm' 's' (by decide) (by decide) (by decide) [] (by simp) s hs nl (nlskip 'm')
        simpa using this
      rw [e2']
      simp only
      have d2' : ((s.map (· ++ ['s'])).getD [] ++ nl).dropWhile isSep =
          (s.map (· ++ ['s'])).getD [] ++ nl := by
        have := dropSep (s := []) (by simp) h3
        simpa using this
      rw [d2', e3]
      exact final nl rfl
  · intro n hn
    unfold parseDuration at hn
    obtain ⟨h, l1, e1⟩ : ∃ h l1, group 'h' l = (h, l1) := ⟨_, _, rfl⟩
    obtain ⟨m, l2, e2⟩ : ∃ m l2, group 'm' (l1.dropWhile isSep) = (m, l2) := ⟨_, _, rfl⟩
    obtain ⟨s, l3, e3⟩ : ∃ s l3, group 's' (l2.dropWhile isSep) = (s, l3) := ⟨_, _, rfl⟩
    simp only [e1, e2, e3] at hn
    split at hn
    · rename_i hl3
      simp only [Option.some.injEq] at hn
      have inv : ∀ (c : Char) (l l' : List Char) (g : Option (List Char)), group c l = (g, l') →
          l = (g.map (· ++ [c])).getD [] ++ l' ∧
          ∀ ds, g = some ds → ds ≠ [] ∧ ∀ x ∈ ds, x.isDigit = true := by
        intro c l l' g hg
        cases g with
        | none => exact ⟨by simpa using group_none_inv hg, by simp⟩
        | some ds =>
          obtain ⟨a, b, c⟩ := group_inv hg
          exact ⟨by simpa using a, by intro ds' h'; cases h'; exact ⟨b, c⟩⟩
      obtain ⟨a1, b1⟩ := inv _ _ _ _ e1
      obtain ⟨a2, b2⟩ := inv _ _ _ _ e2
      obtain ⟨a3, b3⟩ := inv _ _ _ _ e3
      have seps : ∀ l : List Char, ∀ c ∈ l.takeWhile isSep, c = ' ' ∨ c = ':' := by
        intro l c hc
        have := mem_takeWhile hc
        simpa [isSep] using this
      refine ⟨h, m, s, ⟨⟨l1.takeWhile isSep, l2.takeWhile isSep, l3, seps _, seps _, hl3, ?_⟩, ?_⟩,
        by omega⟩
      · have w1 : l1 = l1.takeWhile isSep ++ l1.dropWhile isSep :=
          (List.takeWhile_append_dropWhile).symm
        have w2 : l2 = l2.takeWhile isSep ++ l2.dropWhile isSep :=
          (List.takeWhile_append_dropWhile).symm
        rw [a2] at w1
        rw [a3] at w2
        rw [a1]
        conv => lhs; rw [w1]
        conv => lhs; rw [w2]
        simp only [List.append_assoc]
      · intro g hg
        simp only [List.mem_cons, List.not_mem_nil, or_false] at hg
        rcases hg with rfl | rfl | rfl
        · exact b1
        · exact b2
        · exact b3
    · simp at hn

/-! ## Concrete cases -/

def exEntries : List (Entry Nat) :=
  [⟨.pass, 1, .other⟩, ⟨.crash, 1, .other⟩, ⟨.skip, 2, .resource⟩, ⟨.pass, 2, .resource⟩,
   ⟨.none, 3, .attachment⟩, ⟨.none, 1, .other⟩]

example : (categoryOutcomeMap exEntries).lookup 1 = some .fail ∧
    (categoryOutcomeMap exEntries).lookup 2 = some .pass ∧
    (categoryOutcomeMap exEntries).lookup 3 = none ∧
    globalOutcome .resource exEntries = .pass ∧ globalOutcome .attachment exEntries = .skip ∧
    outcomeStats exEntries = [(.pass, 2), (.crash, 1), (.skip, 1)] := by decide

example : estimatedDuration 0 30
    [(⟨true, some 5, true⟩ : DurJob Nat), ⟨false, some 7, true⟩, ⟨false, none, false⟩,
     ⟨true, some 2, true⟩] = (some 7, some 67) := by decide
example : estimatedDuration 0 30 [(⟨true, none, true⟩ : DurJob Nat), ⟨false, none, true⟩] =
    (none, none) := by decide

example : DurationText "1h 2m:30s".toList (some ['1']) (some ['2']) (some ['3', '0']) := by
  refine ⟨⟨[' '], [':'], [], by simp, by simp, by simp, by decide⟩, ?_⟩
  intro g hg ds hds
  simp only [List.mem_cons, List.not_mem_nil, or_false] at hg
  rcases hg with rfl | rfl | rfl <;> cases hds <;> exact ⟨by simp, by decide⟩
example : parseDuration "1h 2m:30s".toList = some 3750 := by decide
example : parseDuration "90".toList = none := by decide

end Verif.Stats
