import Verif.Model.SuspendJson
import Verif.Lemmas.ResumeJson
import Verif.Lemmas.ResumeRes
import Verif.Lemmas.SuspendCycle

/-! # The two models of suspending and resuming agree

`Verif.Suspend` resumes from a document given as a tree of fields, `Verif.ResumeJson` from a JSON value.  Whenever the
former succeeds, the latter does with the same session. -/

namespace Verif.SuspendJson

open Verif.Session
open Verif.ResumeJson (Str Json JRes Cfg Exc writeRes buildRes toResult validate validateKey)
open Verif.Suspend (Fmt Doc)

attribute [-instance] List.instBEq
set_option linter.unusedSectionVars false

variable {J E R : Type}

/-- Reading one result, as `_process_job` does it. -/
def readRes (c : Cfg J R) (w : Json) : Option (Result R) :=
  match validate (J := J) w .dict false with
  | .error _ => none
  | .ok o =>
    match buildRes c 6 o with
    | .error _ => none
    | .ok r => if (c.records r).isSome then some (toResult c r) else none

/-- The format of the tree model that this code amounts to. -/
def fmt (c : Cfg J R) (real : Result R → JRes) (dir : Str) : Fmt J R Str Json where
  cks := c.cks
  write r := writeRes dir (real r)
  read := readRes c

/-- The fields of a document as JSON. -/
def ofDoc (sorted : List Str → List Str) (m : Peek.Meta) (d : Doc Str Str Json) : Json :=
  Peek.writeDoc sorted 6 (.obj (d.jobs.map fun p => (p.1, .str p.2)))
    (.obj (d.results.map fun p => (p.1, .arr p.2))) (.arr (d.desired.map .str))
    (.arr (d.mandatory.map .str)) m

variable [DecidableEq J] [DecidableEq E] [DecidableEq R]

theorem document_eq (c : Cfg J R) (real : Result R → JRes) (sorted : List Str → List Str) (dir : Str)
    (sem : Sem J Str E R) (m : Peek.Meta) (s : Session J Str E R) :
    document c.cks real sorted dir sem m s =
      ofDoc sorted m (Suspend.suspend (fmt c real dir) sem s) := by
  simp only [document, ofDoc, Suspend.suspend, fmt, List.map_map, Function.comp_def]

theorem lookup_map {α β : Type} (g : α → β) (i : Str) : ∀ l : List (Str × α),
    (l.map fun p => (p.1, g p.2)).lookup i = (l.lookup i).map g := by
  intro l
  induction l with
  | nil => rfl
  | cons p l ih =>
    obtain ⟨k, v⟩ := p
    rcases hb : (i == k) with _ | _ <;> simp only [List.map_cons, List.lookup_cons, hb]
    · exact ih
    · rfl

theorem buildAll_read {c : Cfg J R} {real : Result R → JRes} {dir : Str} : ∀ (ws : List Json)
    {rs : List (Result R)}, Suspend.readAll (fmt c real dir) ws = some rs →
    ∃ js, ResumeJson.buildAll c 6 ws = .ok js ∧ rs = js.map (toResult c) ∧
      ∀ r ∈ js, (c.records r).isSome := by
  intro ws
  induction ws with
  | nil =>
    intro rs h
    simp only [Suspend.readAll, Option.some.injEq] at h
    exact ⟨[], rfl, h ▸ rfl, by simp⟩
  | cons w ws ih =>
    intro rs h
    simp only [Suspend.readAll] at h
    split at h
    · cases h
    rename_i r hr
    split at h
    · cases h
    rename_i rs' hrs
    cases h
    obtain ⟨js, h1, h2, h3⟩ := ih hrs
    simp only [fmt, readRes] at hr
    split at hr
    · cases hr
    rename_i o ho
    split at hr
    · cases hr
    rename_i r' hr'
    split at hr
    · rename_i hrec
      cases hr
      refine ⟨r' :: js, ?_, by rw [h2]; rfl, ?_⟩
      · simp only [ResumeJson.buildAll, ho, hr', h1]
      · intro x hx
        rcases List.mem_cons.mp hx with rfl | hx
        · exact hrec
        · exact h3 x hx
    · cases hr

/-- The same outcome of processing one job. -/
def Same : Suspend.Step J Str E R → ResumeJson.Step J E R → Prop
  | .done s, y => y = .done s
  | .keyError s, y => y = .keyError s
  | .raised _, _ => True

/-- The session is consistent whatever processing one job ends with. -/
def BookStep (sem : Sem J Str E R) : Suspend.Step J Str E R → Prop
  | .done s => Book sem s
  | .keyError s => Book sem s
  | .raised _ => True

theorem replay_same {c : Cfg J R} {sem : Sem J Str E R} {j : J} : ∀ (js : List JRes)
    {s : Session J Str E R}, Book sem s → (∀ r ∈ js, (c.records r).isSome) →
    Same (Suspend.replay sem j (js.map (toResult c)) s) (ResumeJson.replay c sem j js s) ∧
    BookStep sem (Suspend.replay sem j (js.map (toResult c)) s) := by
  intro js
  induction js with
  | nil => intro s hb _; exact ⟨rfl, hb⟩
  | cons r js ih =>
    intro s hb hrec
    have hr : (c.records r).isNone = false := by
      have := hrec r (by simp)
      cases h : c.records r <;> simp_all
    have hb1 := hb.updateResult j (toResult c r)
    simp only [List.map_cons, Suspend.replay, ResumeJson.replay, hr, Bool.and_false,
      Bool.false_eq_true, if_false]
    generalize updateResult sem s j (toResult c r) = x at hb1 ⊢
    obtain ⟨s1, e⟩ := x
    cases e with
    | none => exact ih hb1 fun r hr => hrec r (by simp [hr])
    | some e =>
      cases e with
      | keyError i => exact ⟨rfl, hb1⟩
      | _ => exact ⟨trivial, trivial⟩

/-- The members of the document. -/
def jobsJ (d : Doc Str Str Json) : Json := .obj (d.jobs.map fun p => (p.1, .str p.2))

/-- The members of the document. -/
def resultsJ (d : Doc Str Str Json) : Json := .obj (d.results.map fun p => (p.1, .arr p.2))

theorem processJob_same {c : Cfg J R} {real : Result R → JRes} {dir : Str} {sem : Sem J Str E R}
    (d : Doc Str Str Json) {s : Session J Str E R} (hb : Book sem s) (i : Str) :
    Same (Suspend.processJob (fmt c real dir) sem d s i)
      (ResumeJson.processJob c sem 6 (jobsJ d) (resultsJ d) s i) ∧
    BookStep sem (Suspend.processJob (fmt c real dir) sem d s i) := by
  unfold Suspend.processJob
  cases hj : d.jobs.lookup i with
  | none => exact ⟨trivial, trivial⟩
  | some ck =>
    have e1 : validateKey (J := J) (jobsJ d) i .str false = .ok (.str ck) := by
      simp only [validateKey, ResumeJson.item, jobsJ]
      rw [lookup_map (fun x => Json.str x), hj]
      rfl
    unfold ResumeJson.processJob
    rw [e1]
    dsimp only
    cases hq : s.states.lookup i with
    | none => exact ⟨rfl, hb⟩
    | some q =>
      dsimp only
      obtain ⟨_, hid⟩ := hb.lookup_job hq
      by_cases hck : c.cks q.job = ck
      · have e2 : (decide (some (c.cks q.job) ≠ ResumeJson.strOf (.str ck)) && !c.ignoreChecksums) = false := by
          rw [show ResumeJson.strOf (.str ck) = some ck from rfl, hck]
          simp
        have e3 : ¬ (fmt c real dir).cks q.job ≠ ck := fun h => h hck
        rw [if_neg e3, e2, hid]
        simp only [Bool.false_eq_true, if_false]
        have e4 : (ResumeJson.objOf (resultsJ d)).lookup i = (d.results.lookup i).map Json.arr :=
          lookup_map (fun x => Json.arr x) i d.results
        rw [e4]
        cases hr : d.results.lookup i with
        | none => exact ⟨rfl, hb⟩
        | some ws =>
          have e5 : validateKey (J := J) (resultsJ d) i .list true = .ok (.arr ws) := by
            simp only [validateKey, ResumeJson.item, resultsJ]
            rw [lookup_map (fun x => Json.arr x), hr]
            rfl
          simp only [Option.map_some, Option.isNone_some, Bool.false_eq_true, if_false, e5,
            ResumeJson.listOf]
          cases ha : Suspend.readAll (fmt c real dir) ws with
          | none => exact ⟨trivial, trivial⟩
          | some rs =>
            obtain ⟨js, h1, h2, h3⟩ := buildAll_read ws ha
            subst h2
            rw [h1]
            exact replay_same js hb h3
      · have e3 : (fmt c real dir).cks q.job ≠ ck := hck
        rw [if_pos e3]
        exact ⟨trivial, trivial⟩

theorem pass_same {c : Cfg J R} {real : Result R → JRes} {dir : Str} {sem : Sem J Str E R}
    (d : Doc Str Str Json) : ∀ (is : List Str) {s s' : Session J Str E R} {left : List Str},
    Book sem s → Suspend.pass (fmt c real dir) sem d is s = .ok (s', left) →
    ResumeJson.pass c sem 6 (jobsJ d) (resultsJ d) is s = .ok (s', left) ∧ Book sem s' := by
  intro is
  induction is with
  | nil =>
    intro s s' left hb h
    simp only [Suspend.pass, Except.ok.injEq, Prod.mk.injEq] at h
    obtain ⟨rfl, rfl⟩ := h
    exact ⟨rfl, hb⟩
  | cons i is ih =>
    intro s s' left hb h
    obtain ⟨hs, hb1⟩ := processJob_same (c := c) (real := real) (dir := dir) d hb i
    simp only [Suspend.pass] at h
    simp only [ResumeJson.pass]
    generalize Suspend.processJob (fmt c real dir) sem d s i = x at h hs hb1
    cases x with
    | raised e => cases h
    | done s1 =>
      rw [show ResumeJson.processJob c sem 6 (jobsJ d) (resultsJ d) s i = .done s1 from hs]
      exact ih hb1 h
    | keyError s1 =>
      rw [show ResumeJson.processJob c sem 6 (jobsJ d) (resultsJ d) s i = .keyError s1 from hs]
      dsimp only at h ⊢
      split at h
      · cases h
      rename_i s2 left2 h2
      cases h
      obtain ⟨a, b⟩ := ih hb1 h2
      rw [a]
      exact ⟨rfl, b⟩

theorem rounds_same {c : Cfg J R} {real : Result R → JRes} {dir : Str} {sem : Sem J Str E R}
    (d : Doc Str Str Json) : ∀ (n : Nat) {left : List Str} {s s' : Session J Str E R},
    Book sem s → Suspend.rounds (fmt c real dir) sem d n left s = .ok s' →
    ResumeJson.rounds c sem 6 (jobsJ d) (resultsJ d) n left s = .ok s' := by
  intro n
  induction n with
  | zero =>
    intro left s s' _ h
    cases left with
    | nil => simp only [Suspend.rounds, Except.ok.injEq] at h; simp only [ResumeJson.rounds, h]
    | cons => cases h
  | succ n ih =>
    intro left s s' hb h
    cases left with
    | nil => simp only [Suspend.rounds, Except.ok.injEq] at h; simp only [ResumeJson.rounds, h]
    | cons i is =>
      simp only [Suspend.rounds] at h
      simp only [ResumeJson.rounds]
      split at h
      · cases h
      rename_i s1 left1 h1
      obtain ⟨a, b⟩ := pass_same d (i :: is) hb h1
      rw [a]
      dsimp only
      split at h
      · rename_i hlt
        rw [if_pos hlt]
        exact ih b h
      · cases h

theorem addBase_same {sem : Sem J Str E R} : ∀ (js : List J) {s s' : Session J Str E R},
    Book sem s → Suspend.addBase sem js s = .ok s' →
    ResumeJson.addBase sem js s = .ok s' ∧ Book sem s' := by
  intro js
  induction js with
  | nil =>
    intro s s' hb h
    simp only [Suspend.addBase, Except.ok.injEq] at h
    subst h
    exact ⟨rfl, hb⟩
  | cons j js ih =>
    intro s s' hb h
    have hb1 := (hb.addUnit j).1
    simp only [Suspend.addBase] at h
    simp only [ResumeJson.addBase]
    generalize addUnit sem s j = x at h hb1
    obtain ⟨s1, e⟩ := x
    cases e with
    | none => exact ih hb1 h
    | some e => cases h

theorem lookupJobs_same (s : Session J Str E R) : ∀ is : List Str,
    ResumeJson.lookupJobs s is = Suspend.lookupJobs s is := by
  intro is
  induction is with
  | nil => rfl
  | cons i is ih =>
    simp only [ResumeJson.lookupJobs, Suspend.lookupJobs, ih]
    cases s.states.lookup i with
    | none => rfl
    | some q => cases Suspend.lookupJobs s is <;> rfl

theorem strings_str : ∀ l : List Str, ResumeJson.strings (J := J) (l.map .str) = .ok l := by
  intro l
  induction l with
  | nil => rfl
  | cons a l ih =>
    have : validate (J := J) (.str a) .str false = .ok (.str a) := rfl
    simp only [List.map_cons, ResumeJson.strings, this, ih]
    rfl

theorem jobList_same {sr : Json} {key : Str} {ids : List Str}
    (h : validateKey (J := J) sr key .list false = .ok (.arr (ids.map .str)))
    {s : Session J Str E R} {l : List J} (hl : Suspend.lookupJobs s ids = some l) :
    ResumeJson.jobList sr key s = .ok l := by
  unfold ResumeJson.jobList
  rw [h]
  simp only [ResumeJson.listOf, strings_str, lookupJobs_same, hl]

theorem textJson_ok (o : Option Str) :
    validate (J := J) (Peek.textJson o) .str true = .ok (Peek.textJson o) := by
  cases o <;> rfl

/-- The value of key `session`. -/
def sessionJ (sorted : List Str → List Str) (m : Peek.Meta) (d : Doc Str Str Json) : Json :=
  .obj [("jobs".toList, jobsJ d), ("results".toList, resultsJ d),
    ("desired_job_list".toList, .arr (d.desired.map .str)),
    ("mandatory_job_list".toList, .arr (d.mandatory.map .str)),
    ("metadata".toList, Peek.writeMeta sorted 6 m)]

theorem metadata_same (sorted : List Str → List Str) (m : Peek.Meta) (d : Doc Str Str Json) :
    ResumeJson.metadata (J := J) 6 (sessionJ sorted m d) = .ok () := by
  have e0 : validateKey (J := J) (sessionJ sorted m d) "metadata".toList .dict false =
    .ok (Peek.writeMeta sorted 6 m) := rfl
  have e1 : validateKey (J := J) (Peek.writeMeta sorted 6 m) "title".toList .str true =
    .ok (Peek.textJson m.title) := by
    show validate (J := J) (Peek.textJson m.title) .str true = _
    exact textJson_ok _
  have e2 : validateKey (J := J) (Peek.writeMeta sorted 6 m) "flags".toList .list false =
    .ok (.arr ((sorted m.flags).map .str)) := rfl
  have e3 : validateKey (J := J) (Peek.writeMeta sorted 6 m) "running_job_name".toList .str true =
    .ok (Peek.textJson m.running) := by
    show validate (J := J) (Peek.textJson m.running) .str true = _
    exact textJson_ok _
  have e5 : validateKey (J := J) (Peek.writeMeta sorted 6 m) "app_id".toList .str true =
    .ok (Peek.textJson m.appId) := by
    show validate (J := J) (Peek.textJson m.appId) .str true = _
    exact textJson_ok _
  cases hbl : m.blob with
  | none =>
    have e4 : validateKey (J := J) (Peek.writeMeta sorted 6 m) "app_blob".toList .str true =
      .ok .null := by
      show validate (J := J) (match m.blob with
        | none => Json.null
        | some b => .str (IOLog.b64enc b)) .str true = _
      rw [hbl]
      rfl
    simp only [ResumeJson.metadata, e0, e1, e2, e3, e4, e5, ResumeJson.listOf, strings_str,
      ResumeJson.strOf]
    rfl
  | some b =>
    have e4 : validateKey (J := J) (Peek.writeMeta sorted 6 m) "app_blob".toList .str true =
      .ok (.str (IOLog.b64enc b)) := by
      show validate (J := J) (match m.blob with
        | none => Json.null
        | some b => .str (IOLog.b64enc b)) .str true = _
      rw [hbl]
      rfl
    simp only [ResumeJson.metadata, e0, e1, e2, e3, e4, e5, ResumeJson.listOf, strings_str,
      ResumeJson.strOf, IOLog.b64_round]
    rfl

theorem build_same {c : Cfg J R} {real : Result R → JRes} {dir : Str} {sem : Sem J Str E R}
    {sortIds : List Str → List Str} {base : List J} (sorted : List Str → List Str) (m : Peek.Meta)
    {d : Doc Str Str Json} {s : Session J Str E R}
    (h : Suspend.resume (fmt c real dir) sem sortIds base d = .ok s) :
    ResumeJson.build c sem sortIds 6 base (sessionJ sorted m d) = .ok s := by
  unfold Suspend.resume at h
  unfold ResumeJson.build
  split at h
  · cases h
  rename_i s0 h0
  have hb0 : Book sem s0 :=
    (Suspend.construct_proc (f := fmt c real dir) (d := d) h0).book
  rw [h0]
  dsimp only
  split at h
  · cases h
  rename_i s1 h1
  have r1 : ResumeJson.restoreResults c sem sortIds 6 base (sessionJ sorted m d) s0 = .ok s1 := by
    unfold Suspend.restoreResults at h1
    unfold ResumeJson.restoreResults
    have e1 : validateKey (J := J) (sessionJ sorted m d) "jobs".toList .dict false =
      .ok (jobsJ d) := rfl
    have e2 : validateKey (J := J) (sessionJ sorted m d) "results".toList .dict false =
      .ok (resultsJ d) := rfl
    have e3 : (ResumeJson.objOf (jobsJ d)).map Prod.fst = d.jobs.map Prod.fst := by
      simp only [ResumeJson.objOf, jobsJ, List.map_map, Function.comp_def]
    have e4 : (ResumeJson.objOf (resultsJ d)).map Prod.fst = d.results.map Prod.fst := by
      simp only [ResumeJson.objOf, resultsJ, List.map_map, Function.comp_def]
    simp only [e1, e2, e3, e4]
    split at h1
    · cases h1
    rename_i t1 ht1
    obtain ⟨a, b⟩ := addBase_same base hb0 ht1
    rw [a]
    dsimp only
    split at h1
    · cases h1
    rename_i t2 left ht2
    obtain ⟨a, b⟩ := pass_same d _ b ht2
    rw [a]
    exact rounds_same d _ b h1
  rw [r1]
  simp only [metadata_same]
  split at h
  · cases h
  rename_i s2 h2
  have r2 : ResumeJson.restoreMandatory 6 (sessionJ sorted m d) s1 = .ok s2 := by
    unfold Suspend.restoreMandatory at h2
    split at h2
    · cases h2
    rename_i l hl
    cases h2
    unfold ResumeJson.restoreMandatory
    rw [if_neg (by decide), jobList_same (ids := d.mandatory) rfl hl]
  rw [r2]
  dsimp only
  split at h
  · cases h
  rename_i s3 h3
  have r3 : ResumeJson.restoreDesired sem (sessionJ sorted m d) s2 = .ok s3 := by
    unfold Suspend.restoreDesired at h3
    split at h3
    · cases h3
    rename_i l hl
    unfold ResumeJson.restoreDesired
    rw [jobList_same (ids := d.desired) rfl hl]
    dsimp only at h3 ⊢
    split at h3
    · rename_i hn
      simp only [hn]
      cases h3; rfl
    · cases h3
    · cases h3
  rw [r3]
  dsimp only
  unfold Suspend.restoreJobList at h
  unfold ResumeJson.restoreJobList
  have e1 : validateKey (J := J) (sessionJ sorted m d) "jobs".toList .dict false =
      .ok (jobsJ d) := rfl
  have e3 : (ResumeJson.objOf (jobsJ d)).map Prod.fst = d.jobs.map Prod.fst := by
    simp only [ResumeJson.objOf, jobsJ, List.map_map, Function.comp_def]
  simp only [e1, e3]
  dsimp only at h
  generalize trim sem s3 (fun j => decide (sem.id j ∉ s3.runList.map sem.id ++ d.jobs.map Prod.fst)) = x at h ⊢
  obtain ⟨s4, e⟩ := x
  cases e with
  | none => cases h; rfl
  | some e => cases h

/-- Whenever resuming from the tree succeeds, resuming from the JSON value succeeds with the same session. -/
theorem resume_same {c : Cfg J R} {real : Result R → JRes} {dir : Str} {sem : Sem J Str E R}
    {sortIds : List Str → List Str} {base : List J} (sorted : List Str → List Str) (m : Peek.Meta)
    {s s' : Session J Str E R}
    (h : Suspend.resume (fmt c real dir) sem sortIds base (Suspend.suspend (fmt c real dir) sem s) = .ok s') :
    ResumeJson.resume c sem sortIds base (.json (document c.cks real sorted dir sem m s)) = .ok s' := by
  rw [document_eq]
  have e := build_same sorted m h
  generalize Suspend.suspend (fmt c real dir) sem s = d at e
  have e0 : validate (J := J) (ofDoc sorted m d) .dict false = .ok (ofDoc sorted m d) := rfl
  have e1 : ResumeJson.item (J := J) (ofDoc sorted m d) "version".toList = .ok (.int 6) := rfl
  have e2 : ResumeJson.versionOf (.int 6) = some 6 := by decide
  have e3 : validateKey (J := J) (ofDoc sorted m d) "session".toList .dict false =
    .ok (sessionJ sorted m d) := rfl
  simp only [ResumeJson.resume, ResumeJson.resumeJson, e0, e1, e2, e3]
  exact e

theorem cycles_same {c : Cfg J R} {real : Result R → JRes} {dir : Str} {sem : Sem J Str E R}
    {sortIds : List Str → List Str} {base : List J} (sorted : List Str → List Str) :
    ∀ (ms : List Peek.Meta) {s s' : Session J Str E R},
    Suspend.cycles (fmt c real dir) sem sortIds base ms.length s = .ok s' →
    cycles c real sorted sortIds dir sem base ms s = .ok s' := by
  intro ms
  induction ms with
  | nil => intro s s' h; exact (show Except.ok s = Except.ok s' by cases h; rfl)
  | cons m ms ih =>
    intro s s' h
    simp only [List.length_cons, Suspend.cycles] at h
    simp only [cycles]
    split at h
    · cases h
    rename_i s1 h1
    rw [resume_same sorted m h1]
    exact ih h

end Verif.SuspendJson
