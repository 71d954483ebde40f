import Verif.Lemmas.ResumeJson
import Verif.Lemmas.ResumeRes

/-!
# C23 (resuming an arbitrary document) and the results of C19 in full detail
-/

set_option linter.unusedSectionVars false

namespace Verif.ResumeJson

open Verif.Session

attribute [-instance] List.instBEq

variable {J E R : Type} [DecidableEq J] [DecidableEq E] [DecidableEq R]

/-- The document has no job with `null` in place of its list of results. -/
def NoNullResults (v : Json) : Prop :=
  ∀ sr rs, (objOf v).lookup "session".toList = some sr →
    (objOf sr).lookup "results".toList = some rs → ∀ i, (objOf rs).lookup i ≠ some .null

/-- What a session must satisfy to be usable: the books agree, the run list is made of its jobs,
each once and after its dependencies. -/
structure Usable (sem : Sem J Str E R) (s : Session J Str E R) : Prop where
  jobs : (s.jobs.map sem.id).Nodup
  states : s.states.map (fun p => (p.1, p.2.job)) = s.jobs.map fun j => (sem.id j, j)
  run : ∀ j ∈ s.runList, j ∈ s.jobs
  once : (s.runList.map sem.id).Nodup
  order : ∀ pre j post, s.runList = pre ++ j :: post → ∀ d ∈ sem.depOrder j, d.2 ∈ pre.map sem.id

/-- **C23** (partial): whatever JSON value the data contains, resuming it returns a session or
raises one of the documented exceptions, provided that a location is given, log files of results with
an outcome can be read, no list of results is `null`, and the jobs given, their siblings and
everything templates can make of them have unique ids and programs that compile.  Each proviso is
needed, see the theorems that follow. -/
theorem C23_json_partial {c : Cfg J R} {sem : Sem J Str E R} (hwf : sem.WF) {base U : List J}
    {loc : Str} (hU : Universe sem base U) (hlog : ∀ r, r.outcome ≠ .none → (c.records r).isSome)
    (hl : c.location = some loc) (sortIds : List Str → List Str) (v : Json)
    (hn : NoNullResults v) :
    (∃ s, resume c sem sortIds base (.json v) = .ok s ∧ Usable sem s) ∨
    (∃ e, resume c sem sortIds base (.json v) = .error e ∧ Documented e) := by
  have conc : ∀ x : Except (Exc J) (Session J Str E R), Good x →
      (∀ s, x = .ok s → Usable sem s) →
      (∃ s, x = .ok s ∧ Usable sem s) ∨ (∃ e, x = .error e ∧ Documented e) := by
    intro x hx hs
    cases x with
    | ok s => exact .inl ⟨s, rfl, hs s rfl⟩
    | error e => exact .inr ⟨e, rfl, hx e rfl⟩
  refine conc _ ?_ ?_ <;> simp only [resume, resumeJson]
  all_goals split
  · exact (validate_good _ _ _).err ‹_›
  · split
    · exact (item_good _ _).err ‹_›
    · exact good_corrupted
    · split
      · intro e he; cases he; exact .incompatibleSession
      · split
        · exact (validateKey_good _ _ _ _).err ‹_›
        · rename_i _ o ho _ _ _ _ _ n _ _ sr hsr
          refine (build_good hwf hU hlog hl sortIds n ?_).1
          intro rs hrs
          have hov : o = v := validate_eq ho
          subst hov
          exact hn sr rs (validateKey_eq hsr) hrs
  · intro s he; cases he
  · split
    · intro s he; cases he
    · intro s he; cases he
    · split
      · intro s he; cases he
      · split
        · intro s he; cases he
        · rename_i _ o ho _ _ _ _ _ n _ _ sr hsr
          intro s hs
          have hov : o = v := validate_eq ho
          subst hov
          obtain ⟨b, r, _, nd, ord⟩ := (build_good hwf hU hlog hl sortIds n (by
            intro rs hrs
            exact hn sr rs (validateKey_eq hsr) hrs)).2 s hs
          exact ⟨b.nodup, b.states, r, nd, ord⟩

/-- **C23** for the envelope: data that is not gzip, not UTF-8 or not JSON is refused with
`CorruptedSessionError`. -/
theorem C23_envelope_partial (c : Cfg J R) (sem : Sem J Str E R) (sortIds : List Str → List Str)
    (base : List J) (env : Envelope) (h1 : env ≠ .truncated) (h2 : env ≠ .damaged)
    (h3 : ∀ v, env ≠ .json v) : resume c sem sortIds base env = .error .corrupted := by
  cases env <;> first | rfl | exact absurd rfl h1 | exact absurd rfl h2 | exact absurd rfl (h3 _)

/-- A document of a version that is not one of 1 to 6 is refused as incompatible, before anything
else in it is looked at. -/
theorem C23_version (c : Cfg J R) (sem : Sem J Str E R) (sortIds : List Str → List Str)
    (base : List J) (l : List (Str × Json)) (n : Int)
    (hv : l.lookup "version".toList = some (.int n)) (hn : n < 1 ∨ 6 < n) :
    resume c sem sortIds base (.json (.obj l)) = .error .incompatibleSession := by
  have e1 : validate (J := J) (.obj l) .dict false = .ok (.obj l) := rfl
  have e2 : item (J := J) (.obj l) "version".toList = .ok (.int n) := by
    simp only [item]; rw [hv]
  have e3 : versionOf (.int n) = none := by
    show (if 1 ≤ n ∧ n ≤ 6 then some n.toNat else none) = none
    rw [if_neg (by omega)]
  simp only [resume, resumeJson, e1, e2, e3]

/-- **C23, changed definitions**: a document that mentions a job given to resume with another
checksum is never accepted silently: unless checksums are ignored, processing that job raises
`IncompatibleJobError`, whatever else the document says about it. -/
theorem C23_checksum (c : Cfg J R) (sem : Sem J Str E R) (n : Nat) (jobs results : Json)
    (s : Session J Str E R) (i ck : Str) (q : JobState J E R)
    (hq : s.states.lookup i = some q) (hj : (objOf jobs).lookup i = some (.str ck))
    (hne : ck ≠ c.cks q.job) (hig : c.ignoreChecksums = false) :
    processJob c sem n jobs results s i = .raised .incompatibleJob := by
  have e1 : validateKey (J := J) jobs i .str false = .ok (.str ck) := by
    cases jobs with
    | obj l =>
      simp only [objOf] at hj
      simp only [validateKey, item, hj]
      rfl
    | _ => simp [objOf] at hj
  unfold processJob
  rw [e1]
  simp only [hq]
  have hd : decide (some (c.cks q.job) ≠ strOf (.str ck)) = true :=
    decide_eq_true (fun h => hne (Option.some.inj h).symm)
  rw [hd, hig]
  rfl

/-- **C19 for one result**: a result whose duration and delays are floats, whose streams are the
two standard ones, whose comments hold no escape sequence and whose log file, if it has one, lies
inside the session directory is read back unchanged from what was written for it. -/
theorem C19_result_partial {c : Cfg J R} {ds : List Str} (hd : ds ≠ []) (hds : ∀ w ∈ ds, Comp w)
    (hl : c.location = some ('/' :: joinSlash ds)) {n : Nat} (hn : 5 ≤ n) {r : JRes}
    (h : Clean c ds r) : buildRes c n (writeRes ('/' :: joinSlash ds) r) = .ok r :=
  buildRes_write hd hds hl hn h

/-- Conversely a result is never read back unchanged if its duration is not a float or its comments
hold an escape sequence. -/
theorem C19_result_needs {c : Cfg J R} {dir : Str} {n : Nat} {r : JRes}
    (h : buildRes c n (writeRes dir r) = .ok r) :
    (∀ d, r.duration = some d → ∃ x, d = .fl x) ∧ (∀ t, r.comments = some t → sanitize t = t) := by
  unfold buildRes at h
  split at h
  · cases h
  split at h
  · cases h
  rename_i cm hcm
  split at h
  · cases h
  split at h
  · cases h
  rename_i du hdu
  have hcm' : cm = optJson (fun c => .str (sanitize c)) r.comments := by
    have : validateKey (J := J) (writeRes dir r) "comments".toList .str true =
      validate (optJson (fun c => .str (sanitize c)) r.comments) .str true := rfl
    rw [this] at hcm
    exact validate_eq hcm
  have key : r.comments = strOf cm ∧ r.duration = durationOf du := by
    dsimp only at h
    split at h
    · split at h
      · cases h
      · split at h
        · cases h
        · simp only [Except.ok.injEq] at h
          rw [← h]; exact ⟨rfl, rfl⟩
    · split at h
      · cases h
      · split at h
        · cases h
        · simp only [Except.ok.injEq] at h
          rw [← h]; exact ⟨rfl, rfl⟩
  refine ⟨?_, ?_⟩
  · intro d hd
    rw [key.2] at hd
    cases du <;> simp only [durationOf] at hd <;> first | cases hd; done | skip
    cases hd
    exact ⟨_, rfl⟩
  · intro t ht
    have h1 := key.1
    rw [hcm', ht] at h1
    simp only [optJson, strOf, Option.some.injEq] at h1
    exact h1.symm

/-! ## Concrete cases -/

/-- Jobs of the examples. -/
structure YJob where
  id : Str
  tag : Nat := 0
  bad : Bool := false
  resource : Bool := false
deriving DecidableEq, Repr

/-- A resource job makes a job of every record that is one letter out of `g`, `h`. -/
def ySem : Sem YJob Str Nat Str where
  id := YJob.id
  direct _ := []
  after _ := []
  prog j := if j.bad then .bad else .absent
  depOrder _ := []
  isResource := YJob.resource
  failOnResource _ := false
  expr := ⟨fun _ => [], fun _ _ => some true⟩
  family _ := []
  gen _ rs := (rs.filter fun r => decide (r = ['g'] ∨ r = ['h'])).map fun r => ⟨r, 1, false, false⟩
  blank := []

theorem ySem_wf : ySem.WF := by
  intro j ty i
  simp only [ySem, Sem.resDeps]
  split <;> simp

/-- Text of the data of a log. -/
def yRecords (r : JRes) : Option (List Str) :=
  match r.log with
  | .mem l => some (l.map fun x => x.data.map fun b => Char.ofNat b.val)
  | .disk _ => some []

/-- Configuration of the examples. -/
def yCfg : Cfg YJob Str where
  cks j := j.id
  records := yRecords
  extra _ := 0
  isfile _ := true
  checkFiles := false
  rewritePaths := false
  ignoreChecksums := false
  rewrite a _ := a
  location := some "/s".toList

def yr : YJob := ⟨['r'], 0, false, true⟩
def yg : YJob := ⟨['g'], 1, false, false⟩
def yh : YJob := ⟨['h'], 1, false, false⟩

theorem y_universe : Universe ySem [yr] [yr, yg, yh] := by
  refine ⟨by decide, by simp, by simp [ySem], ?_, by simp [ySem, yr, yg, yh]⟩
  intro j _ r k hk
  unfold Suspend.genOf at hk
  split at hk
  · simp only [ySem, List.mem_map, List.mem_filter, decide_eq_true_eq] at hk
    obtain ⟨a, ⟨_, ha⟩, rfl⟩ := hk
    rcases ha with rfl | rfl <;> simp [yg, yh]
  · cases hk

/-- A result in JSON: outcome pass, records with the given texts. -/
def yResult (texts : List (List (Fin 256))) : Json :=
  .obj [("outcome".toList, .str "pass".toList), ("comments".toList, .null),
        ("return_code".toList, .int 0), ("execution_duration".toList, .null),
        ("io_log".toList, .arr (texts.map fun t => writeRec ⟨.fl ⟨false, [], none⟩,
          "stdout".toList, t⟩))]

/-- A document. -/
def yDoc (ver : Json) (jobs results : List (Str × Json)) (desired : List Json) : Json :=
  .obj [("version".toList, ver),
        ("session".toList, .obj [("jobs".toList, .obj jobs), ("results".toList, .obj results),
          ("metadata".toList, .obj [("title".toList, .null), ("flags".toList, .arr []),
            ("running_job_name".toList, .null), ("app_blob".toList, .null),
            ("app_id".toList, .null)]),
          ("mandatory_job_list".toList, .arr []), ("desired_job_list".toList, .arr desired)])]

/-- The jobs of a resumed session, or the exception. -/
def yRun (base : List YJob) (c : Cfg YJob Str) (v : Json) :
    Except (Exc YJob) (List Str × List Str) :=
  match resume c ySem (fun l => l.dedup) base (.json v) with
  | .error e => .error e
  | .ok s => .ok (s.jobs.map YJob.id, s.runList.map YJob.id)

/-- A document with a generated job is resumed: `g` precedes `r` in it and is processed in the
second round. -/
example : yRun [yr] yCfg (yDoc (.int 6) [(['g'], .str ['g']), (['r'], .str ['r'])]
    [(['r'], .arr [yResult [[103]]])] [.str ['g']]) = .ok ([['r'], ['g']], [['g']]) := by
  decide +kernel

/-- Documents that are refused: an unknown job, a changed job, a wrong type, a wrong version. -/
example : yRun [yr] yCfg (yDoc (.int 6) [(['z'], .str ['z'])] [] []) = .error .corrupted := by
  decide +kernel
example : yRun [yr] yCfg (yDoc (.int 6) [(['r'], .str ['q'])] [] []) = .error .incompatibleJob := by
  decide +kernel
example : yRun [yr] yCfg (yDoc (.int 6) [(['r'], .str ['r'])] [] [.int 4]) = .error .corrupted := by
  decide +kernel
example : yRun [yr] yCfg (yDoc (.int 7) [] [] []) = .error .incompatibleSession := by
  decide +kernel
example : yRun [yr] yCfg (yDoc (.bool true) [] [] []) = .ok ([], []) := by decide +kernel

/-- The hypotheses of `C23_json_partial` hold for these documents. -/
example (v : Json) (hn : NoNullResults v) :
    (∃ s, resume yCfg ySem (fun l => l.dedup) [yr] (.json v) = .ok s ∧ Usable ySem s) ∨
    (∃ e, resume yCfg ySem (fun l => l.dedup) [yr] (.json v) = .error e ∧ Documented e) :=
  C23_json_partial ySem_wf y_universe
    (by intro r _; show (yRecords r).isSome = true; unfold yRecords; split <;> rfl) rfl _ v hn

/-- **C23 is violated**: a `null` list of results is accepted by the validation and iterated. -/
theorem C23_null_violated : yRun [yr] yCfg (yDoc (.int 6) [(['r'], .str ['r'])] [(['r'], .null)] [])
    = .error .typeError := by decide +kernel

/-- A result whose log is in the file `x` of the session directory. -/
def yDisk : Json :=
  .obj [("outcome".toList, .str "pass".toList), ("comments".toList, .null),
        ("return_code".toList, .int 0), ("execution_duration".toList, .null),
        ("io_log_filename".toList, .str ['x'])]

/-- **C23 is violated**: without a location a relative log file raises `ValueError`. -/
theorem C23_location_violated : yRun [yr] { yCfg with location := none }
    (yDoc (.int 6) [(['r'], .str ['r'])] [(['r'], .arr [yDisk])] []) = .error .valueError := by
  decide +kernel

/-- **C23 is violated**: a log that cannot be read (file reference checks are off) raises what
`open` raises. -/
theorem C23_log_violated : yRun [yr] { yCfg with records := fun _ => none }
    (yDoc (.int 6) [(['r'], .str ['r'])] [(['r'], .arr [yDisk])] []) = .error .logError := by
  decide +kernel

/-- With checks the same document is refused as documented. -/
example : yRun [yr] { yCfg with records := (fun _ => none), checkFiles := true,
                                isfile := fun _ => false }
    (yDoc (.int 6) [(['r'], .str ['r'])] [(['r'], .arr [yDisk])] []) = .error .brokenReference := by
  decide +kernel

/-- **C23 is violated**: a record from which a template makes a job that clashes with a job given
to resume raises `DependencyDuplicateError`. -/
theorem C23_clash_violated : yRun [yr, ⟨['g'], 0, false, false⟩] yCfg
    (yDoc (.int 6) [(['r'], .str ['r'])] [(['r'], .arr [yResult [[103]]])] []) =
    .error (.session (.duplicate ⟨['g'], 0, false, false⟩ yg)) := by decide +kernel

/-- **C23 is violated**: selecting a job whose requirement program does not compile raises what the
compiler raises. -/
theorem C23_program_violated : yRun [⟨['b'], 0, true, false⟩] yCfg
    (yDoc (.int 6) [(['b'], .str ['b'])] [] [.str ['b']]) = .error (.session .badProgram) := by
  decide +kernel

/-- **C23 is violated**: truncated data raises `EOFError`, damaged data `zlib.error`. -/
theorem C23_envelope_violated (c : Cfg J R) (sem : Sem J Str E R) (sortIds : List Str → List Str)
    (base : List J) :
    resume c sem sortIds base .truncated = .error .eofError ∧
    resume c sem sortIds base .damaged = .error .zlibError ∧
    ¬ Documented (.eofError : Exc J) ∧ ¬ Documented (.zlibError : Exc J) :=
  ⟨rfl, rfl, (by intro h; cases h), (by intro h; cases h)⟩

/-- The exceptions in the violations above are not documented ones. -/
theorem C23_undocumented (e : Session.Err J Str) : ¬ Documented (.typeError : Exc J) ∧
    ¬ Documented (.valueError : Exc J) ∧ ¬ Documented (.logError : Exc J) ∧
    ¬ Documented (.session e : Exc J) :=
  ⟨(by intro h; cases h), (by intro h; cases h), (by intro h; cases h), (by intro h; cases h)⟩

/-- A result that is kept: a log file in the session directory. -/
def yKept : JRes := ⟨.fail, some "broken".toList, some 3, some (.fl ⟨false, "1.5".toList, none⟩),
  .disk "/s/io-logs/x".toList⟩

theorem yKept_clean : Clean yCfg [['s']] yKept := by
  refine ⟨?_, ?_, ?_, ?_⟩
  · intro d hd; cases hd; exact ⟨_, rfl⟩
  · intro t ht; cases ht; decide +kernel
  · intro l hl; cases hl
  · intro name hn
    cases hn
    refine ⟨⟨["io-logs".toList, ['x']], by simp, ?_, by decide +kernel⟩, fun _ => rfl⟩
    intro w hw
    simp only [List.mem_cons, List.not_mem_nil, or_false] at hw
    rcases hw with rfl | rfl <;>
      exact ⟨by decide +kernel, by decide +kernel, by decide +kernel, by decide +kernel⟩

example : buildRes yCfg 6 (writeRes "/s".toList yKept) = .ok yKept :=
  C19_result_partial (ds := [['s']]) (by simp) (by
    intro w hw
    rw [List.mem_singleton] at hw
    subst hw
    exact ⟨by decide, by decide, by decide, by decide⟩) rfl (by omega) yKept_clean

/-- **C19 is violated**: a result whose duration is an integer makes the saved session
unreadable. -/
theorem C19_duration_violated : buildRes yCfg 6 (writeRes "/s".toList
    ⟨.pass, none, none, some (.int 1), .mem []⟩) = .error .corrupted := by decide +kernel

/-- **C19 is violated**: comments lose escape sequences, and when removing one makes another, the
text that is shown changes with the suspend cycle. -/
theorem C19_comments_violated :
    let c : Str := [Char.ofNat 27, Char.ofNat 27, '[', 'm', '[', 'm', 'x']
    sanitize c = [Char.ofNat 27, '[', 'm', 'x'] ∧ sanitize (sanitize c) = ['x'] ∧
    buildRes yCfg 6 (writeRes "/s".toList ⟨.pass, some c, none, none, .mem []⟩) =
      .ok ⟨.pass, some (sanitize c), none, none, .mem []⟩ := by decide +kernel

/-- **C19 is violated**: the name of a log file outside the session directory changes. -/
theorem C19_outside_violated : buildRes yCfg 6 (writeRes "/s".toList
    ⟨.pass, none, none, none, .disk "/t/x".toList⟩) =
    .ok ⟨.pass, none, none, none, .disk "/s/../t/x".toList⟩ := by decide +kernel

end Verif.ResumeJson
