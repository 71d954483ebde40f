import Verif.Model.ResumeJson
import Verif.Props.IOLog

/-!
# One result, written and read back: lemmas
-/

set_option linter.unusedSectionVars false
set_option linter.unusedSimpArgs false

namespace Verif.ResumeJson

open Verif.Session

attribute [-instance] List.instBEq

variable {J R : Type}

/-! ## Paths -/

theorem getLast?_append_ne {α : Type} (l : List α) {m : List α} (h : m ≠ []) :
    (l ++ m).getLast? = m.getLast? := by
  rw [List.getLast?_append]
  cases hm : m.getLast? with
  | none => exact absurd (List.getLast?_eq_none_iff.mp hm) h
  | some a => rfl

/-- A component of a normalised path. -/
structure Comp (w : Str) : Prop where
  ne : w ≠ []
  slash : '/' ∉ w
  dot : w ≠ ['.']
  dots : w ≠ ['.', '.']

theorem splitPath_append (w r : Str) (h : '/' ∉ w) :
    splitPath (w ++ '/' :: r) = w :: splitPath r := by
  induction w with
  | nil => simp [splitPath]
  | cons c w ih =>
    simp only [List.mem_cons, not_or] at h
    have hc : ¬ c = '/' := fun e => h.1 e.symm
    simp only [List.cons_append, splitPath, if_neg hc, ih h.2]

theorem splitPath_word (w : Str) (h : '/' ∉ w) : splitPath w = [w] := by
  induction w with
  | nil => rfl
  | cons c w ih =>
    simp only [List.mem_cons, not_or] at h
    have hc : ¬ c = '/' := fun e => h.1 e.symm
    simp only [splitPath, if_neg hc, ih h.2]

theorem splitPath_join : ∀ ws : List Str, ws ≠ [] → (∀ w ∈ ws, Comp w) →
    splitPath (joinSlash ws) = ws := by
  intro ws
  induction ws with
  | nil => intro h; exact absurd rfl h
  | cons w ws ih =>
    intro _ hw
    cases ws with
    | nil => exact splitPath_word w (hw w (by simp)).slash
    | cons w2 ws =>
      have : joinSlash (w :: w2 :: ws) = w ++ '/' :: joinSlash (w2 :: ws) := rfl
      rw [this, splitPath_append _ _ (hw w (by simp)).slash, ih (by simp)
        (fun x hx => hw x (by simp [hx]))]

theorem comps_abs (ws : List Str) (hw : ∀ w ∈ ws, Comp w) : comps ('/' :: joinSlash ws) = ws := by
  unfold comps
  cases ws with
  | nil => rfl
  | cons w ws =>
    have : splitPath ('/' :: joinSlash (w :: ws)) = [] :: splitPath (joinSlash (w :: ws)) := by
      simp [splitPath]
    rw [this, splitPath_join _ (by simp) hw]
    rw [List.filter_cons]
    simp only [List.isEmpty_nil, Bool.not_true, Bool.false_eq_true, if_false]
    apply List.filter_eq_self.mpr
    intro x hx
    have := (hw x hx).ne
    cases x with
    | nil => exact absurd rfl this
    | cons => rfl

theorem commonLen_append (ds rest : List Str) : commonLen ds (ds ++ rest) = ds.length := by
  induction ds with
  | nil => simp [commonLen]
  | cons d ds ih => simp [commonLen, ih]

theorem joinSlash_append (w : Str) (ds : List Str) : ∀ (rest : List Str), rest ≠ [] →
    joinSlash (w :: ds ++ rest) = joinSlash (w :: ds) ++ '/' :: joinSlash rest := by
  induction ds generalizing w with
  | nil =>
    intro rest hr
    cases rest with
    | nil => exact absurd rfl hr
    | cons r rs => rfl
  | cons d ds ih =>
    intro rest hr
    have e1 : joinSlash (w :: d :: ds ++ rest) = w ++ '/' :: joinSlash (d :: ds ++ rest) := rfl
    have e2 : joinSlash (w :: d :: ds) = w ++ '/' :: joinSlash (d :: ds) := rfl
    rw [e1, e2, ih d rest hr]
    simp

theorem joinSlash_head {ws : List Str} (hne : ws ≠ []) (hw : ∀ w ∈ ws, Comp w) :
    (joinSlash ws).head? ≠ some '/' := by
  cases ws with
  | nil => exact absurd rfl hne
  | cons w ws =>
    have h := hw w (by simp)
    cases hwc : w with
    | nil => exact absurd hwc h.ne
    | cons c r =>
      have hc : c ≠ '/' := by
        rintro rfl
        exact h.slash (by rw [hwc]; simp)
      cases ws <;> simp [joinSlash, hc]

theorem joinSlash_last : ∀ {ws : List Str}, ws ≠ [] → (∀ w ∈ ws, Comp w) →
    joinSlash ws ≠ [] ∧ (joinSlash ws).getLast? ≠ some '/' := by
  intro ws
  induction ws with
  | nil => intro h; exact absurd rfl h
  | cons w ws ih =>
    intro _ hw
    have h := hw w (by simp)
    cases ws with
    | nil =>
      refine ⟨h.ne, ?_⟩
      intro hl
      exact h.slash (List.mem_of_getLast? hl)
    | cons w2 ws =>
      obtain ⟨a, b⟩ := ih (by simp) (fun x hx => hw x (by simp [hx]))
      have e : joinSlash (w :: w2 :: ws) = (w ++ ['/']) ++ joinSlash (w2 :: ws) := by
        simp [joinSlash]
      rw [e]
      refine ⟨by simp, ?_⟩
      rw [getLast?_append_ne _ a]
      exact b

/-- A file inside a directory keeps its name when the name is made relative and joined again. -/
theorem relpath_join {ds rest : List Str} (hd : ds ≠ []) (hr : rest ≠ [])
    (hds : ∀ w ∈ ds, Comp w) (hrs : ∀ w ∈ rest, Comp w) :
    relpath ('/' :: joinSlash (ds ++ rest)) ('/' :: joinSlash ds) = joinSlash rest ∧
    pathJoin ('/' :: joinSlash ds) (joinSlash rest) = '/' :: joinSlash (ds ++ rest) := by
  constructor
  · unfold relpath
    simp only
    rw [comps_abs ds hds, comps_abs (ds ++ rest) (by
      intro w hw
      rcases List.mem_append.mp hw with hw | hw
      · exact hds w hw
      · exact hrs w hw), commonLen_append]
    simp [hr]
  · unfold pathJoin
    rw [if_neg (joinSlash_head hr hrs)]
    obtain ⟨a, b⟩ := joinSlash_last hd hds
    rw [if_neg (by
      rintro (h | h)
      · simp at h
      · have : (['/'] ++ joinSlash ds).getLast? = some '/' := h
        rw [getLast?_append_ne _ a] at this
        exact b this)]
    cases ds with
    | nil => exact absurd rfl hd
    | cons w ds =>
      rw [joinSlash_append w ds rest hr]
      simp

/-! ## Records -/

/-- A record that JSON and the checks of resuming keep: the delay is a float that is not negative
and the stream is one of the two. -/
structure CleanRec (r : LogRec) : Prop where
  delay : ∃ x : Fl, r.delay = .fl x ∧ x.neg = false
  stream : r.stream = "stdout".toList ∨ r.stream = "stderr".toList

theorem buildRec_write {r : LogRec} (h : CleanRec r) : buildRec (J := J) (writeRec r) = .ok r := by
  obtain ⟨delay, stream, data⟩ := r
  obtain ⟨⟨x, hx, hn⟩, hs⟩ := h
  simp only at hx hs
  subst hx
  have e1 : validate (J := J) (writeRec ⟨.fl x, stream, data⟩) .list false =
    .ok (writeRec ⟨.fl x, stream, data⟩) := rfl
  have e2 : validateIdx (J := J) (listOf (writeRec ⟨.fl x, stream, data⟩)) 0 .float =
    .ok (.float x) := rfl
  have e3 : validateIdx (J := J) (listOf (writeRec ⟨.fl x, stream, data⟩)) 1 .str =
    .ok (.str stream) := rfl
  have e4 : validateIdx (J := J) (listOf (writeRec ⟨.fl x, stream, data⟩)) 2 .str =
    .ok (.str (IOLog.b64enc data)) := rfl
  unfold buildRec
  simp only [e1, e2, e3, e4, hn, Bool.false_eq_true, if_false, strOf, Option.getD_some,
    IOLog.b64_round]
  rw [if_neg (by rintro ⟨a, b⟩; rcases hs with h | h <;> contradiction)]

theorem buildRecs_write : ∀ l : List LogRec, (∀ r ∈ l, CleanRec r) →
    buildRecs (J := J) (l.map writeRec) = .ok l := by
  intro l
  induction l with
  | nil => intro _; rfl
  | cons r l ih =>
    intro h
    simp only [List.map_cons, buildRecs, buildRec_write (h r (by simp)),
      ih (fun x hx => h x (by simp [hx]))]

/-! ## Results -/

/-- A result that is saved without loss. -/
structure Clean (c : Cfg J R) (ds : List Str) (r : JRes) : Prop where
  duration : ∀ d, r.duration = some d → ∃ x, d = .fl x
  comments : ∀ t, r.comments = some t → sanitize t = t
  mem : ∀ l, r.log = .mem l → ∀ x ∈ l, CleanRec x
  disk : ∀ name, r.log = .disk name → (∃ rest, rest ≠ [] ∧ (∀ w ∈ rest, Comp w) ∧
    name = '/' :: joinSlash (ds ++ rest)) ∧ (c.checkFiles = true → c.isfile name = true)

theorem outcome_read (o : Outcome) (rest : List (Str × Json)) :
    buildOutcome (J := J) (.obj (("outcome".toList, outcomeJson o) :: rest)) = .ok o := by
  cases o <;> rfl

theorem buildRes_write {c : Cfg J R} {ds : List Str} (hd : ds ≠ []) (hds : ∀ w ∈ ds, Comp w)
    (hl : c.location = some ('/' :: joinSlash ds)) {n : Nat} (hn : 5 ≤ n) {r : JRes}
    (h : Clean c ds r) : buildRes c n (writeRes ('/' :: joinSlash ds) r) = .ok r := by
  obtain ⟨oc, cm, rc, du, log⟩ := r
  have hdu := h.duration
  have hcm := h.comments
  simp only at hdu hcm
  unfold writeRes
  simp only
  generalize hrest : logFields ('/' :: joinSlash ds) log = tail
  generalize ho : Json.obj ([("outcome".toList, outcomeJson oc),
    ("execution_duration".toList, optJson numJson du),
    ("comments".toList, optJson (fun c => Json.str (sanitize c)) cm),
    ("return_code".toList, optJson Json.int rc)] ++ tail) = o
  have e1 : buildOutcome (J := J) o = .ok oc := by rw [← ho]; exact outcome_read _ _
  have e2 : validateKey (J := J) o "comments".toList .str true = .ok (optJson .str cm) := by
    have : validateKey (J := J) o "comments".toList .str true =
      validate (optJson (fun c => Json.str (sanitize c)) cm) .str true := by rw [← ho]; rfl
    rw [this]
    cases cm with
    | none => rfl
    | some t =>
      have := hcm t rfl
      simp only [optJson, this]
      rfl
  have e3 : validateKey (J := J) o "return_code".toList .int true = .ok (optJson .int rc) := by
    have : validateKey (J := J) o "return_code".toList .int true =
      validate (optJson .int rc) .int true := by rw [← ho]; rfl
    rw [this]
    cases rc <;> rfl
  have e4 : validateKey (J := J) o "execution_duration".toList .float true =
      .ok (optJson numJson du) := by
    have : validateKey (J := J) o "execution_duration".toList .float true =
      validate (optJson numJson du) .float true := by rw [← ho]; rfl
    rw [this]
    cases du with
    | none => rfl
    | some d =>
      obtain ⟨x, rfl⟩ := hdu d rfl
      rfl
  have d1 : strOf (optJson .str cm) = cm := by cases cm <;> rfl
  have d2 : intOf (optJson .int rc) = rc := by cases rc <;> rfl
  have d3 : durationOf (optJson numJson du) = du := by
    cases du with
    | none => rfl
    | some d =>
      obtain ⟨x, rfl⟩ := hdu d rfl
      rfl
  unfold buildRes
  rw [e1, e2, e3, e4]
  simp only [d1, d2, d3]
  cases log with
  | mem l =>
    simp only [logFields] at hrest
    subst hrest
    have f1 : ((objOf o).lookup "io_log_filename".toList).isSome = false := by rw [← ho]; rfl
    have f2 : validateKey (J := J) o "io_log".toList .list false =
      .ok (.arr (l.map writeRec)) := by rw [← ho]; rfl
    rw [f1]
    simp only [Bool.false_eq_true, if_false, f2, listOf]
    rw [buildRecs_write l (h.mem l rfl)]
  | disk name =>
    simp only [logFields] at hrest
    subst hrest
    obtain ⟨⟨rest, hr, hrs, hname⟩, hfile⟩ := h.disk name rfl
    obtain ⟨p1, p2⟩ := relpath_join hd hr hds hrs
    have f1 : ((objOf o).lookup "io_log_filename".toList).isSome = true := by rw [← ho]; rfl
    have f2 : validateKey (J := J) o "io_log_filename".toList .str false =
      .ok (.str (relpath name ('/' :: joinSlash ds))) := by rw [← ho]; rfl
    rw [f1]
    have f3 : loadFilename c n o = .ok name := by
      unfold loadFilename
      rw [f2]
      simp only [strOf, Option.getD_some]
      rw [if_neg (by omega), hname, p1]
      refine (if_neg (joinSlash_head hr hrs)).trans ?_
      rw [hl]
      simp only [p2]
    have f4 : checkFilename c name = .ok name := by
      unfold checkFilename
      cases hcf : c.checkFiles with
      | false => simp
      | true => simp [hfile hcf]
    simp only [if_true, f3, f4]

end Verif.ResumeJson
