import Verif.Model.Verdict

/-! # C99: the report of one word

What a reader of the report expects: it says `FAIL` just when some job of the session did not do what it should, which is
that its outcome is `fail` or `crash`. -/

namespace Verif.Verdict

open Verif.Checksum (Str)
open Verif.Session (Outcome)

/-- A job went wrong. (specification) -/
def Wrong (i : Item) : Prop := i.outcome = .fail ∨ i.outcome = .crash

/-- The certification statuses that job definitions may have. (specification; unit/job.py 115-147) -/
def known : List Str :=
  ["unspecified".toList, "not-part-of-certification".toList, "non-blocker".toList, "blocker".toList]

/-- The filtered map has exactly the jobs with one of the outcomes and one of the statuses, once each and in the order of
the map. -/
theorem C99_map (os : List Outcome) (ss : List Str) (m : List Item) :
    (∀ i, i ∈ statusMap os ss m ↔ i ∈ m ∧ i.outcome ∈ os ∧ i.status ∈ ss) ∧ (statusMap os ss m).Sublist m ∧
    ∀ i ∈ m, i.outcome ∈ os → i.status ∈ ss → (statusMap os ss m).count i = m.count i := by
  refine ⟨fun i => by simp [statusMap], List.filter_sublist, fun i _ ho hs => ?_⟩
  exact List.count_filter (by simp [ho, hs])

/-- Asked without arguments, it has the jobs that failed and block the certification. -/
theorem C99_blockers (m : List Item) (i : Item) :
    i ∈ statusMap defaultOutcomes defaultStatuses m ↔ i ∈ m ∧ i.outcome = .fail ∧ i.status = "blocker".toList := by
  simp [C99_map, defaultOutcomes, defaultStatuses]

theorem report_fail {devices : List (List Item)} : report devices = some "FAIL".toList ↔
    ∃ m, devices.head? = some m ∧ ∃ i ∈ m, i.outcome = .fail ∧ i.status ∈ templateStatuses := by
  have hm : ∀ m : List Item, (statusMap defaultOutcomes templateStatuses m).isEmpty = false ↔
      ∃ i ∈ m, i.outcome = .fail ∧ i.status ∈ templateStatuses := by
    intro m
    rw [List.isEmpty_eq_false_iff_exists_mem]
    simp only [(C99_map _ _ m).1, defaultOutcomes, List.mem_singleton]
  unfold report managerState
  cases devices.head? with
  | none => simp
  | some m =>
    simp only [Option.map_some, Option.some.injEq, exists_eq_left']
    rw [← hm m]
    cases (statusMap defaultOutcomes templateStatuses m).isEmpty with
    | true => simp
    | false => simp

/-- The report of a session with a device is one of the two words, and nothing else. -/
theorem C99_word (devices : List (List Item)) (h : devices ≠ []) :
    report devices = some "PASS".toList ∨ report devices = some "FAIL".toList := by
  cases devices with
  | nil => exact absurd rfl h
  | cons m rest =>
    simp only [report, managerState, List.head?_cons, Option.map_some]
    by_cases he : (statusMap defaultOutcomes templateStatuses m).isEmpty = true
    · exact Or.inl (by rw [if_pos he])
    · exact Or.inr (by rw [if_neg he])

/-- `FAIL` is never said of a session in which no job went wrong. -/
theorem C99_sound (devices : List (List Item)) (h : report devices = some "FAIL".toList) :
    ∃ m ∈ devices, ∃ i ∈ m, Wrong i := by
  obtain ⟨m, hm, i, hi, ho, _⟩ := report_fail.1 h
  exact ⟨m, List.mem_of_head? hm, i, hi, Or.inl ho⟩

/-- `FAIL` is said just when some job went wrong. It holds for a session of one device in which no job crashed, and the
jobs that failed have a status that may be written in a definition, other than `non-blocker`. -/
theorem C99_verdict_partial (m : List Item) (hc : ∀ i ∈ m, i.outcome ≠ .crash)
    (hs : ∀ i ∈ m, i.outcome = .fail → i.status ∈ known ∧ i.status ≠ "non-blocker".toList) :
    (report [m] = some "FAIL".toList ↔ ∃ i ∈ m, Wrong i) ∧ (report [m] = some "PASS".toList ↔ ¬ ∃ i ∈ m, Wrong i) := by
  have h1 : report [m] = some "FAIL".toList ↔ ∃ i ∈ m, Wrong i := by
    rw [report_fail]
    constructor
    · rintro ⟨_, hm, i, hi, ho, _⟩
      cases hm
      exact ⟨i, hi, Or.inl ho⟩
    · rintro ⟨i, hi, ho | ho⟩
      · refine ⟨m, rfl, i, hi, ho, ?_⟩
        obtain ⟨hk, hn⟩ := hs i hi ho
        simp only [known, List.mem_cons, List.not_mem_nil, or_false] at hk
        simp only [templateStatuses, List.mem_cons, List.not_mem_nil, or_false]
        rcases hk with h | h | h | h
        · exact Or.inl h
        · exact Or.inr (Or.inl h)
        · exact absurd h hn
        · exact Or.inr (Or.inr (Or.inl h))
      · exact absurd ho (hc i hi)
  refine ⟨h1, ?_⟩
  rw [← h1]
  rcases C99_word [m] (by simp) with h | h
  · rw [h]; decide
  · rw [h]; decide

/-- Some job failed, some passed, and a status comes from a test plan. -/
example : report [[⟨"a".toList, .pass, "blocker".toList⟩, ⟨"b".toList, .fail, "unspecified".toList⟩,
    ⟨"c".toList, .notSupported, "non-blocker".toList⟩]] = some "FAIL".toList := by decide

/-- Nothing went wrong. -/
example : report [[⟨"a".toList, .pass, "blocker".toList⟩, ⟨"b".toList, .skip, "non-blocker".toList⟩]] =
    some "PASS".toList := by decide

/-- A session whose jobs with the status `non-blocker` all failed passes: the template spells the status `non-bloker`. -/
theorem C99_spelling_violated (m : List Item) (h : ∀ i ∈ m, i.outcome = .fail → i.status = "non-blocker".toList) :
    report [m] = some "PASS".toList := by
  rcases C99_word [m] (by simp) with hr | hr
  · exact hr
  · obtain ⟨_, hm, i, hi, ho, hs⟩ := report_fail.1 hr
    cases hm
    rw [h i hi ho] at hs
    exact absurd hs (by decide)

example : ∀ i ∈ [(⟨"a".toList, .fail, "non-blocker".toList⟩ : Item)], i.outcome = .fail → i.status = "non-blocker".toList := by
  simp

/-- A session in which every job crashed passes, whatever the statuses. -/
theorem C99_crash_violated (m : List Item) (h : ∀ i ∈ m, i.outcome = .crash) : report [m] = some "PASS".toList := by
  rcases C99_word [m] (by simp) with hr | hr
  · exact hr
  · obtain ⟨_, hm, i, hi, ho, hs⟩ := report_fail.1 hr
    cases hm
    rw [h i hi] at ho
    exact absurd ho (by decide)

example : ∀ i ∈ [(⟨"a".toList, .crash, "blocker".toList⟩ : Item)], i.outcome = .crash := by simp

/-- What happened on any but the first device has no influence. -/
theorem C99_devices_violated (m : List Item) (rest : List (List Item)) : report (m :: rest) = report [m] := rfl

example : report [[⟨"a".toList, .pass, "blocker".toList⟩], [⟨"a".toList, .fail, "blocker".toList⟩]] = some "PASS".toList := by
  decide

/-- A session without devices has no report. -/
theorem C99_none : report [] = none := rfl

end Verif.Verdict
