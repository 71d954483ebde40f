import Verif.Lemmas.SuspendJson
import Verif.Props.Suspend
import Verif.Props.ResumeJson

/-! # C19 and C20 down to the JSON value

`Verif/Props/Suspend.lean` proves the two properties for documents given as trees of fields, for results that can be
read back.  Here the document is the JSON value that is written, all of its parts are validated when it is read, and
which results can be read back is said in terms of the results themselves. -/

namespace Verif.SuspendJson

open Verif.Session
open Verif.ResumeJson (Str Json JRes Cfg Exc Log Clean Comp writeRes buildRes toResult joinSlash)
open Verif.Suspend (SortOK ReachableReal Resumable Produced genOf)

attribute [-instance] List.instBEq
set_option linter.unusedSectionVars false

variable {J E R : Type} [DecidableEq J] [DecidableEq E] [DecidableEq R]

/-- The results in a session are results that are saved without loss: the duration and the delays are floats that are
not negative, the streams are the two standard ones, the comments hold no escape sequence, a log file lies in the
session directory and can be read.  `real` says which result object the session model's result stands for. -/
def Kept (c : Cfg J R) (ds : List Str) (real : Result R → JRes) (s : Session J Str E R) : Prop :=
  ∀ i q, s.states.lookup i = some q → ∀ r ∈ q.history,
    Clean c ds (real r) ∧ (c.records (real r)).isSome ∧ toResult c (real r) = r

theorem kept_readable {c : Cfg J R} {ds : List Str} (hd : ds ≠ []) (hds : ∀ w ∈ ds, Comp w)
    (hl : c.location = some ('/' :: joinSlash ds)) {real : Result R → JRes} {s : Session J Str E R}
    (h : Kept c ds real s) : Suspend.Readable (fmt c real ('/' :: joinSlash ds)) s := by
  intro i q hq r hr
  obtain ⟨h1, h2, h3⟩ := h i q hq r hr
  have e := ResumeJson.buildRes_write hd hds hl (n := 6) (by omega) h1
  have e0 : ResumeJson.validate (J := J) (writeRes ('/' :: joinSlash ds) (real r)) .dict false =
    .ok (writeRes ('/' :: joinSlash ds) (real r)) := rfl
  simp only [fmt, readRes, e0, e, h2, if_true, h3]

/-- **C19 and C20 down to the JSON value**, for sessions in which no hollow result replaced a real one, whose results
are saved without loss and whose desired jobs start with the mandatory ones.  Any number of suspend/resume cycles,
whatever the title, the flags and the application's data are at each of them, returns normally; exactly the jobs that
had results have them afterwards, with the same definition, result and history; the run list and the mandatory list are
the same, and the desired list names the same jobs in the same order after one more copy of the mandatory jobs for each
cycle.  Missing: other results (`ResumeJson.C19_duration_violated`, `C19_comments_violated`, `C19_outside_violated`),
hollow results (`Suspend.C19_hollow_violated`), other selections (`Suspend.C20_run_list_violated`). -/
theorem C19_json_partial {c : Cfg J R} (hinj : Function.Injective c.cks) {sem : Sem J Str E R} (hwf : sem.WF)
    {sortIds : List Str → List Str} (hsort : SortOK sortIds) (sorted : List Str → List Str)
    {ds : List Str} (hd : ds ≠ []) (hds : ∀ w ∈ ds, Comp w) (hl : c.location = some ('/' :: joinSlash ds))
    {real : Result R → JRes} {base U : List J} {s : Session J Str E R} (hr : ReachableReal sem s)
    (hk : Kept c ds real s) (hR : Resumable sem base U s) (hm : s.mandatory <+: s.desired)
    (ms : List Peek.Meta) :
    ∃ s', cycles c real sorted sortIds ('/' :: joinSlash ds) sem base ms s = .ok s' ∧
      (∀ i q, s.states.lookup i = some q → q.history ≠ [] →
        ∃ q', s'.states.lookup i = some q' ∧ q'.job = q.job ∧ q'.result = q.result ∧ q'.history = q.history) ∧
      (∀ i q', s'.states.lookup i = some q' → q'.history ≠ [] →
        ∃ q, s.states.lookup i = some q ∧ q.job = q'.job ∧ q.result = q'.result ∧ q.history = q'.history) ∧
      s'.runList = s.runList ∧ s'.mandatory = s.mandatory ∧
      s'.desired = (List.replicate ms.length s.mandatory).flatten ++ s.desired := by
  have hread := kept_readable (E := E) hd hds hl hk
  obtain ⟨s', h, _⟩ := Suspend.C19_C20_cycles_succeed (f := fmt c real ('/' :: joinSlash ds)) hinj hwf hsort hr
    hread hR hm ms.length
  obtain ⟨a, b, _⟩ := Suspend.C19_results_partial (f := fmt c real ('/' :: joinSlash ds)) hinj hwf hsort hr hread _ h
  obtain ⟨x, y, z, _⟩ := Suspend.C20_selection_partial (f := fmt c real ('/' :: joinSlash ds)) hinj hwf hsort
    hr.reachable hm _ h
  exact ⟨s', cycles_same sorted ms h, a, b, x, y, z⟩

/-- What each result in the document is read back as: the result object that was saved. -/
theorem C19_json_object {c : Cfg J R} {sem : Sem J Str E R} (hwf : sem.WF) {ds : List Str} (hd : ds ≠ [])
    (hds : ∀ w ∈ ds, Comp w) (hl : c.location = some ('/' :: joinSlash ds)) {real : Result R → JRes}
    {s : Session J Str E R} (hr : ReachableReal sem s) (hk : Kept c ds real s) (sorted : List Str → List Str)
    (m : Peek.Meta) {i : Str} {q : JobState J E R} (hq : s.states.lookup i = some q) (hne : q.history ≠ []) :
    ∃ doc session results saved,
      document c.cks real sorted ('/' :: joinSlash ds) sem m s = .obj doc ∧
      doc.lookup "session".toList = some (.obj session) ∧
      session.lookup "results".toList = some (.obj results) ∧
      results.lookup i = some (.arr saved) ∧
      saved.map (buildRes c 6) = q.history.map fun r => .ok (real r) := by
  refine ⟨_, _, _, q.history.map fun r => writeRes ('/' :: joinSlash ds) (real r), rfl, rfl, rfl, ?_, ?_⟩
  · have hb := (hr.reachable.live hwf).book
    have e := Suspend.suspend_results (f := fmt c real ('/' :: joinSlash ds)) hb i
    rw [hq] at e
    have e' : (Suspend.suspend (fmt c real ('/' :: joinSlash ds)) sem s).results.lookup i =
        some (q.history.map fun r => writeRes ('/' :: joinSlash ds) (real r)) := by
      rw [e]
      simp [fmt, List.length_pos_iff, hne]
    have := lookup_map (fun x => Json.arr x) i (Suspend.suspend (fmt c real ('/' :: joinSlash ds)) sem s).results
    rw [e'] at this
    simp only [Suspend.suspend, fmt, List.map_map, Function.comp_def, Option.map_some] at this
    exact this
  · rw [List.map_map]
    apply List.map_congr_left
    intro r hrm
    exact ResumeJson.buildRes_write hd hds hl (n := 6) (by omega) (hk i q hq r hrm).1

/-! ## Concrete case -/

/-- Jobs are their names; `r` is a resource job that makes a job of every record that is the letter `g`. -/
def zSem : Sem Str Str Nat Str where
  id j := j
  direct _ := []
  after _ := []
  prog _ := .absent
  depOrder _ := []
  isResource j := decide (j = ['r'])
  failOnResource _ := false
  expr := ⟨fun _ => [], fun _ _ => some true⟩
  family _ := []
  gen _ rs := rs.filter fun r => decide (r = ['g'])
  blank := []

theorem zSem_wf : zSem.WF := by
  intro j ty i
  simp [zSem, Sem.resDeps]

/-- Log files exist and are checked. -/
def zCfg : Cfg Str Str where
  cks j := j
  records r := match r.log with
    | .mem l => some (l.map fun x => x.data.map fun b => Char.ofNat b.val)
    | .disk _ => some []
  extra r := match r.log with
    | .mem _ => 0
    | .disk _ => 1
  isfile n := decide (n = "/s/io-logs/x".toList)
  checkFiles := true
  rewritePaths := false
  ignoreChecksums := false
  rewrite a _ := a
  location := some "/s".toList

/-- A result with its log in memory, and one with a log file, comments, a return code and a duration. -/
def zReal (r : Result Str) : JRes :=
  if r.extra = 0 then ⟨.pass, none, some 0, none, .mem [⟨.fl ⟨false, "0.5".toList, none⟩, "stdout".toList, [103]⟩]⟩
  else ResumeJson.yKept

/-- The resource job makes the job `g`, which then fails. -/
def zOps : List (Op Str Str Str) :=
  [.add ['r'], .add ['t'], .mandatory [['r']], .desired [] true, .result ['r'] ⟨.pass, [['g']], 0⟩,
   .desired [['g'], ['t']] true, .result ['g'] ⟨.fail, [], 1⟩]

def zEmpty : Session Str Str Nat Str := ⟨[], [], [], [], [], [], []⟩

def zFinal : Session Str Str Nat Str := (runOps zSem zEmpty zOps).1

theorem z_opsOK : ∀ (ops : List (Op Str Str Str)) (s : Session Str Str Nat Str), OpsOK zSem s ops := by
  have hop : ∀ (s : Session Str Str Nat Str) (op : Op Str Str Str), OpOK zSem s op := by
    intro s op
    have e : ∀ j, zSem.id j ∈ s.jobs.map zSem.id → j ∈ s.jobs := by
      intro j h
      obtain ⟨k, hk, he⟩ := List.mem_map.mp h
      exact (show k = j from he) ▸ hk
    cases op <;> simp only [OpOK]
    · intro v _; exact e v
    · exact e _
  intro ops
  induction ops with
  | nil => intro s; trivial
  | cons op ops ih => intro s; exact ⟨hop s op, ih _⟩

theorem zFinal_real : ReachableReal zSem zFinal := by
  apply Suspend.runOps_real zOps (s := zEmpty)
  · exact .start (units := []) (by decide)
  · exact z_opsOK _ _
  · intro op hop j r he
    subst he
    simp [zOps] at hop
    rcases hop with ⟨_, rfl⟩ | ⟨_, rfl⟩ <;> rfl
  · decide +kernel

theorem zFinal_states : zFinal.states.map (fun p => (p.1, p.2.job, p.2.history)) =
    [(['r'], ['r'], [⟨.pass, [['g']], 0⟩]), (['t'], ['t'], []), (['g'], ['g'], [⟨.fail, [], 1⟩])] := by
  decide +kernel

theorem zFinal_mem {i : Str} {q : JobState Str Nat Str} (hq : zFinal.states.lookup i = some q) :
    (i, q.job, q.history) ∈ [(['r'], ['r'], [⟨.pass, [['g']], 0⟩]), (['t'], ['t'], []),
      ((['g'] : Str), (['g'] : Str), [(⟨.fail, [], 1⟩ : Result Str)])] := by
  rw [← zFinal_states]
  exact List.mem_map.mpr ⟨_, lookup_mem hq, rfl⟩

theorem zFinal_kept : Kept zCfg [['s']] zReal zFinal := by
  intro i q hq r hr
  have := zFinal_mem hq
  simp only [List.mem_cons, Prod.mk.injEq, List.not_mem_nil, or_false] at this
  rcases this with ⟨_, _, h⟩ | ⟨_, _, h⟩ | ⟨_, _, h⟩
  · rw [h, List.mem_singleton] at hr
    subst hr
    refine ⟨⟨?_, ?_, ?_, ?_⟩, by decide +kernel, by decide +kernel⟩
    · intro d hd; cases hd
    · intro t ht; cases ht
    · intro l hl
      cases hl
      intro x hx
      rw [List.mem_singleton] at hx
      subst hx
      exact ⟨⟨_, rfl, rfl⟩, .inl rfl⟩
    · intro n hn; cases hn
  · rw [h] at hr; cases hr
  · rw [h, List.mem_singleton] at hr
    subst hr
    refine ⟨⟨?_, ?_, ?_, ?_⟩, by decide +kernel, by decide +kernel⟩
    · intro d hd; cases hd; exact ⟨_, rfl⟩
    · intro t ht; cases ht; decide +kernel
    · intro l hl; cases hl
    · intro name hn
      cases hn
      refine ⟨⟨["io-logs".toList, ['x']], by simp, ?_, by decide +kernel⟩, fun _ => by decide +kernel⟩
      intro w hw
      simp only [List.mem_cons, List.not_mem_nil, or_false] at hw
      rcases hw with rfl | rfl <;>
        exact ⟨by decide +kernel, by decide +kernel, by decide +kernel, by decide +kernel⟩

theorem zFinal_resumable : Resumable zSem [['r'], ['t']] [['r'], ['t'], ['g']] zFinal := by
  have hr : Produced zSem [['r'], ['t']] zFinal ['r'] := .base (by decide)
  refine ⟨by decide, by decide, by decide, ?_, ?_⟩
  · intro i q hq r hr k hk
    have := zFinal_mem hq
    simp only [List.mem_cons, Prod.mk.injEq, List.not_mem_nil, or_false] at this
    rcases this with ⟨_, hj, h⟩ | ⟨_, hj, h⟩ | ⟨_, hj, h⟩
    · rw [h, List.mem_singleton] at hr
      subst hr
      rw [hj] at hk
      have e : genOf zSem ['r'] ⟨.pass, [['g']], 0⟩ = [['g']] := by decide +kernel
      rw [e] at hk
      simp at hk ⊢
      exact .inr (.inr hk)
    · rw [h] at hr; cases hr
    · rw [h, List.mem_singleton] at hr
      subst hr
      rw [hj] at hk
      have e : genOf zSem ['g'] ⟨.fail, [], 1⟩ = [] := by decide +kernel
      rw [e] at hk
      cases hk
  · intro i q hq _
    have := zFinal_mem hq
    simp only [List.mem_cons, Prod.mk.injEq, List.not_mem_nil, or_false] at this
    rcases this with ⟨_, hj, _⟩ | ⟨_, hj, _⟩ | ⟨_, hj, _⟩
    · rw [hj]; exact hr
    · rw [hj]; exact .base (by decide)
    · rw [hj]
      have hq : ∃ q, zFinal.states.lookup ['r'] = some q ∧ q.job = ['r'] ∧
          q.history = [⟨.pass, [['g']], 0⟩] := by
        have : (zFinal.states.lookup ['r']).map (fun q => (q.job, q.history)) =
          some (['r'], [⟨.pass, [['g']], 0⟩]) := by decide +kernel
        cases h : zFinal.states.lookup ['r'] with
        | none => rw [h] at this; cases this
        | some q =>
          rw [h] at this
          simp only [Option.map_some, Option.some.injEq, Prod.mk.injEq] at this
          exact ⟨q, rfl, this.1, this.2⟩
      obtain ⟨q, h1, h2, h3⟩ := hq
      exact .gen hr h1 h2 (r := ⟨.pass, [['g']], 0⟩) (by rw [h3]; simp) (by decide +kernel)

theorem s_comp : ∀ w ∈ [(['s'] : Str)], Comp w := by
  intro w hw
  rw [List.mem_singleton] at hw
  subst hw
  exact ⟨by decide, by decide, by decide, by decide⟩

theorem dedup_ok : SortOK (fun l : List Str => l.dedup) :=
  fun l => ⟨List.nodup_dedup l, fun _ => List.mem_dedup⟩

/-- The hypotheses of `C19_json_partial` are met: after any cycles the job that was made by the resource job still has
its failure, and the run list is the one before. -/
example (ms : List Peek.Meta) :
    ∃ s', cycles zCfg zReal id (fun l => l.dedup) "/s".toList zSem [['r'], ['t']] ms zFinal = .ok s' ∧
      (∃ q, s'.states.lookup ['g'] = some q ∧ q.history = [⟨.fail, [], 1⟩]) ∧
      s'.runList = [['r'], ['g'], ['t']] := by
  obtain ⟨s', h, a, _, b, _⟩ := C19_json_partial (c := zCfg) (fun _ _ h => h) zSem_wf dedup_ok id (ds := [['s']])
    (by simp) s_comp rfl zFinal_real zFinal_kept zFinal_resumable (by decide +kernel) ms
  refine ⟨s', h, ?_, b.trans (by decide +kernel)⟩
  have e : (zFinal.states.lookup ['g']).map (fun q => q.history) = some [⟨.fail, [], 1⟩] := by decide +kernel
  cases hq : zFinal.states.lookup ['g'] with
  | none => rw [hq] at e; cases e
  | some q =>
    rw [hq] at e
    simp only [Option.map_some, Option.some.injEq] at e
    obtain ⟨q', h1, _, _, h2⟩ := a _ q hq (by rw [e]; simp)
    exact ⟨q', h1, h2.trans e⟩

/-- The hypotheses of `C19_json_object` are met: the failure is read back with its comments, return code, duration and
log file. -/
example (m : Peek.Meta) {q : JobState Str Nat Str} (hq : zFinal.states.lookup ['g'] = some q) :
    ∃ doc session results saved, document zCfg.cks zReal id "/s".toList zSem m zFinal = .obj doc ∧
      doc.lookup "session".toList = some (.obj session) ∧
      session.lookup "results".toList = some (.obj results) ∧ results.lookup ['g'] = some (.arr saved) ∧
      saved.map (buildRes zCfg 6) = [.ok ResumeJson.yKept] := by
  have e : (zFinal.states.lookup ['g']).map (fun q => q.history) = some [⟨.fail, [], 1⟩] := by decide +kernel
  rw [hq] at e
  simp only [Option.map_some, Option.some.injEq] at e
  obtain ⟨a, b, c, d, h1, h2, h3, h4, h5⟩ := C19_json_object zSem_wf (ds := [['s']]) (by simp) s_comp rfl zFinal_real
    zFinal_kept id m hq (by rw [e]; simp)
  exact ⟨a, b, c, d, h1, h2, h3, h4, by rw [h5, e]; rfl⟩

end Verif.SuspendJson
