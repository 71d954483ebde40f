import Verif.Model.Cache
import Mathlib.Data.Countable.Basic
import Mathlib.Logic.Equiv.List

/-!
# C40: the resource job cache

* `C40_history`: in every history of calls of `get`, restarts of the program (a new cache object that
  loads what is on disk) and changes of files outside of the cache, the cache behaves like a map from
  checksums to the result and output that were computed first.  `C40_once` and `C40_same` are what a
  user sees of that.
* `C40_crash_partial`: a crash before the entry is made, or after its last byte was written, does not
  prevent a later load.
* `C40_crash_violated`: a crash anywhere else does, for every later load.
* `C40_no_log_violated`: no crash is needed: a result without a log file (a job for which there is no
  execution controller) leaves such an entry behind, and the exception is `KeyError`.
* `C40_once_violated`: when an entry cannot be removed the job is run again each time.
-/

namespace Verif.Cache

/-! ## Specification -/

/-- The contract of `json.dumps` and `json.loads` for these dictionaries: what was written is read
back, and a text that was cut is not a JSON document. -/
structure Codec.Good {β : Type} (cd : Codec β) : Prop where
  back : ∀ d, cd.parse (cd.render d) = some d
  cut : ∀ d p, p <+: cd.render d → p ≠ cd.render d → cd.parse p = none

/-- The abstract cache: for each checksum the fields and the output computed first. -/
abbrev Abs (β : Type) := Name → Option (β × Bytes)

/-- What happens to a cache. -/
inductive Event (β : Type) where
  /-- a call of `get` -/
  | get (env : Env) (c : Name) (fn : (Name → Name → Option Bytes) × Data β)
  /-- a new process: a new object that loads the directories found -/
  | restart (order : List Name)
  /-- files outside of the cache change -/
  | outside (files : Name → Name → Option Bytes)

/-- What a user can see. -/
inductive Obs (β : Type) where
  /-- `get` for this checksum: whether the function was run, then the fields and the output -/
  | got (c : Name) (ran : Bool) (result : Except Exn (β × Option Bytes))
  | loaded (result : Except Exn Unit)
  | quiet

/-- One event on the modelled cache. -/
def step {β : Type} (cd : Codec β) (s : State β) : Event β → State β × Obs β
  | .get env c fn =>
    let (s', g) := Cache.get cd s env c fn
    (s', .got c g.ran (g.result.map fun d => (d.fields, d.log.bind s'.disk.read)))
  | .restart order => match load cd s.disk (fun _ => none) order with
    | .error e => ({ s with mem := fun _ => none }, .loaded (.error e))
    | .ok m => ({ s with mem := m }, .loaded (.ok ()))
  | .outside files => ({ s with disk := { s.disk with outside := files } }, .quiet)

/-- A history on the modelled cache. -/
def run {β : Type} (cd : Codec β) : State β → List (Event β) → List (Obs β)
  | _, [] => []
  | s, e :: es => (step cd s e).2 :: run cd (step cd s e).1 es

/-- The output of a result that has just been computed. -/
def outputOf {β : Type} (fn : (Name → Name → Option Bytes) × Data β) : Option Bytes :=
  match fn.2.log with
  | some (.outside dir b) => fn.1 dir b
  | _ => none

/-- One event on the abstract cache. -/
def absStep {β : Type} (a : Abs β) : Event β → Abs β × Obs β
  | .get _ c fn => match a c with
    | some x => (a, .got c false (.ok (x.1, some x.2)))
    | none => (set a c ((outputOf fn).map fun o => (fn.2.fields, o)),
        .got c true (.ok (fn.2.fields, outputOf fn)))
  | .restart _ => (a, .loaded (.ok ()))
  | .outside _ => (a, .quiet)

/-- A history on the abstract cache. -/
def absRun {β : Type} : Abs β → List (Event β) → List (Obs β)
  | _, [] => []
  | a, e :: es => (absStep a e).2 :: absRun (absStep a e).1 es

/-- The events considered: functions that are run give a result with a log file that exists and is not
called `result.json` (runner.py line 762: it ends in `.record.gz`), and a restart finds all entries. -/
def Event.Fine {β : Type} (s : State β) : Event β → Prop
  | .get _ _ fn => ∃ dir b, fn.2.log = some (.outside dir b) ∧ b ≠ jsonName ∧ (fn.1 dir b).isSome
  | .restart order => ∀ c, c ∈ order ↔ (s.disk.cache c).isSome
  | .outside _ => True

/-- All events of a history are of the kind considered. -/
def FineRun {β : Type} (cd : Codec β) : State β → List (Event β) → Prop
  | _, [] => True
  | s, e :: es => e.Fine s ∧ FineRun cd (step cd s e).1 es

/-! ## Lemmas -/

theorem set_self {α β : Type} [DecidableEq α] (f : α → β) (a : α) (b : β) : set f a b a = b := by
  simp [set]

theorem set_other {α β : Type} [DecidableEq α] (f : α → β) {a x : α} (b : β) (h : x ≠ a) :
    set f a b x = f x := by simp [set, h]

theorem runOps_append (k : Disk) (l l' : List Op) : runOps k (l ++ l') = runOps (runOps k l) l' := by
  simp [runOps]

theorem run_outside (k : Disk) (op : Op) : (op.run k).outside = k.outside := by
  cases op <;> simp only [Op.run] <;> (try split) <;> rfl

theorem runOps_outside (k : Disk) (ops : List Op) : (runOps k ops).outside = k.outside := by
  induction ops generalizing k with
  | nil => rfl
  | cons op ops ih => simp only [runOps, List.foldl_cons] at ih ⊢; rw [ih, run_outside]

/-- The entry an operation is about. -/
def Op.entry : Op → Name
  | .unlink c _ | .rmdir c | .mkdir c | .create c _ | .append c _ _ => c

theorem run_elsewhere (k : Disk) (op : Op) {c : Name} (h : c ≠ op.entry) :
    (op.run k).cache c = k.cache c := by
  cases op <;> simp only [Op.run, Op.entry] at h ⊢ <;> (try split) <;> simp [set, h]

theorem runOps_elsewhere (k : Disk) (ops : List Op) {c c' : Name} (hc : c' ≠ c)
    (h : ∀ op ∈ ops, op.entry = c) : (runOps k ops).cache c' = k.cache c' := by
  induction ops generalizing k with
  | nil => rfl
  | cons op ops ih =>
    have h1 : op.entry = c := h op (by simp)
    have := ih (op.run k) fun o ho => h o (by simp [ho])
    simp only [runOps, List.foldl_cons] at this ⊢
    rw [this, run_elsewhere k op (by rw [h1]; exact hc)]

theorem appendBytes (c b : Name) (data : Bytes) (k : Disk) (e : Name → Option Bytes) (x : Bytes)
    (he : k.cache c = some e) (hx : e b = some x) :
    ∃ e', (runOps k (data.map (.append c b))).cache c = some e' ∧ e' b = some (x ++ data)
      ∧ ∀ b', b' ≠ b → e' b' = e b' := by
  induction data generalizing k e x with
  | nil => exact ⟨e, he, by simpa using hx, fun _ _ => rfl⟩
  | cons y ys ih =>
    have := ih (Op.run k (.append c b y)) (set e b (some (x ++ [y]))) (x ++ [y])
      (by simp [Op.run, he, hx, set]) (set_self ..)
    obtain ⟨e', h1, h2, h3⟩ := this
    refine ⟨e', by simpa [runOps] using h1, by simpa using h2, fun b' hb => ?_⟩
    rw [h3 b' hb, set_other _ _ hb]

theorem writeFile_prefix (c b : Name) (data : Bytes) (k : Disk) (e : Name → Option Bytes) (n : Nat)
    (he : k.cache c = some e) :
    ∃ e', (runOps k ((writeFile c b data).take (n + 1))).cache c = some e'
      ∧ e' b = some (data.take n) ∧ ∀ b', b' ≠ b → e' b' = e b' := by
  obtain ⟨e', h1, h2, h3⟩ := appendBytes c b (data.take n) (Op.run k (.create c b))
    (set e b (some [])) [] (by simp [Op.run, he, set]) (set_self ..)
  refine ⟨e', ?_, by simpa using h2, fun b' hb => by rw [h3 b' hb, set_other _ _ hb]⟩
  simpa [writeFile, runOps, List.map_take] using h1

theorem writeFile_all (c b : Name) (data : Bytes) (k : Disk) (e : Name → Option Bytes)
    (he : k.cache c = some e) :
    ∃ e', (runOps k (writeFile c b data)).cache c = some e'
      ∧ e' b = some data ∧ ∀ b', b' ≠ b → e' b' = e b' := by
  obtain ⟨e', h1, h2, h3⟩ := writeFile_prefix c b data k e data.length he
  refine ⟨e', ?_, by simpa using h2, h3⟩
  rwa [List.take_of_length_le (by simp [writeFile])] at h1

theorem writeFile_entry (c b : Name) (data : Bytes) : ∀ op ∈ writeFile c b data, op.entry = c := by
  intro op h
  simp only [writeFile, List.mem_cons, List.mem_map] at h
  rcases h with rfl | ⟨x, _, rfl⟩ <;> rfl

theorem rmtree_entry (k : Disk) (c : Name) (files : List Name) :
    ∀ op ∈ rmtree k c files, op.entry = c := by
  intro op h
  unfold rmtree at h
  split at h
  · simp at h
  · simp only [List.mem_append, List.mem_map, List.mem_singleton] at h
    rcases h with ⟨x, _, rfl⟩ | rfl <;> rfl

theorem mkdir_cache (k : Disk) (c : Name) (l : List Op) :
    (runOps k (l ++ [.mkdir c])).cache c = some fun _ => none := by
  rw [runOps_append]; simp [runOps, Op.run, set]

/-- What is on disk when everything was stored. -/
theorem storeOps_all {β : Type} (cd : Codec β) (k : Disk) (c : Name) (files : List Name) (f : β)
    (dir b : Name) (out : Bytes) (hb : b ≠ jsonName) (hout : k.outside dir b = some out) :
    ∃ ops, storeOps cd k c files ⟨f, some (.outside dir b)⟩ = (ops, .ok ⟨f, some (.cached c b)⟩)
      ∧ (∀ op ∈ ops, op.entry = c)
      ∧ ∃ e, (runOps k ops).cache c = some e ∧ e b = some out
        ∧ e jsonName = some (cd.render ⟨f, some (.cached c b)⟩) := by
  have hread : (runOps k (rmtree k c files ++ [.mkdir c])).read (.outside dir b) = some out := by
    simp [Disk.read, runOps_outside, hout]
  refine ⟨_, by simp only [storeOps, hread, Path.base]; rfl, ?_, ?_⟩
  · intro op h
    simp only [List.mem_append, List.mem_singleton, or_assoc] at h
    rcases h with h | rfl | h | h
    · exact rmtree_entry k c files op h
    · rfl
    · exact writeFile_entry _ _ _ op h
    · exact writeFile_entry _ _ _ op h
  · rw [runOps_append, runOps_append]
    obtain ⟨e1, h1, h2, _⟩ := writeFile_all c b out _ _ (mkdir_cache k c (rmtree k c files))
    obtain ⟨e2, h4, h5, h6⟩ := writeFile_all c jsonName (cd.render ⟨f, some (.cached c b)⟩) _ _ h1
    exact ⟨e2, h4, by rw [h6 b hb]; exact h2, h5⟩

/-- How the state of the cache represents the abstract one. -/
def Inv {β : Type} (cd : Codec β) (s : State β) (a : Abs β) : Prop :=
  ∀ c, (a c = none ∧ s.mem c = none ∧ s.disk.cache c = none) ∨
    ∃ f out b e, a c = some (f, out) ∧ b ≠ jsonName ∧ s.mem c = some ⟨f, some (.cached c b)⟩
      ∧ s.disk.cache c = some e ∧ e b = some out
      ∧ e jsonName = some (cd.render ⟨f, some (.cached c b)⟩)

/-- Loading entries that are all complete. -/
theorem load_complete {β : Type} (cd : Codec β) (good : cd.Good) (k : Disk) (g : Name → Option (Data β))
    (order : List Name) (m : Mem β)
    (h : ∀ c ∈ order, ∃ d p, g c = some d ∧ d.log = some p ∧ (k.read p).isSome
      ∧ k.read (.cached c jsonName) = some (cd.render d)) :
    ∃ m', load cd k m order = .ok m' ∧ (∀ c ∈ order, m' c = g c) ∧ ∀ c, c ∉ order → m' c = m c := by
  induction order generalizing m with
  | nil => exact ⟨m, rfl, by simp, fun _ _ => rfl⟩
  | cons c cs ih =>
    obtain ⟨d, p, h1, h2, h3, h4⟩ := h c (by simp)
    have ht : tryLoad cd k m c = .ok (set m c (some d)) := by
      simp only [tryLoad, h4, good.back, h2, h3, if_true]
    obtain ⟨m', h5, h6, h7⟩ := ih (set m c (some d)) fun c' hc' => h c' (by simp [hc'])
    refine ⟨m', by simp only [load, ht, h5], ?_, ?_⟩
    · intro x hx
      by_cases hxs : x ∈ cs
      · exact h6 x hxs
      · have : x = c := by simpa [hxs] using hx
        subst this
        rw [h7 x hxs, set_self, h1]
    · intro x hx
      simp only [List.mem_cons, not_or] at hx
      rw [h7 x hx.2, set_other _ _ hx.1]

theorem step_inv {β : Type} (cd : Codec β) (good : cd.Good) (s : State β) (a : Abs β) (e : Event β)
    (hinv : Inv cd s a) (hfine : e.Fine s) :
    (step cd s e).2 = (absStep a e).2 ∧ Inv cd (step cd s e).1 (absStep a e).1 := by
  cases e with
  | outside files => exact ⟨rfl, hinv⟩
  | restart order =>
    have hload := load_complete cd good s.disk s.mem order (fun _ => none) (by
      intro c hc
      rcases hinv c with ⟨_, _, h⟩ | ⟨f, out, b, e, _, _, h1, h2, h3, h4⟩
      · have := (hfine c).1 hc
        simp [h] at this
      · exact ⟨_, _, h1, rfl, by simp [Disk.read, h2, h3], by simp [Disk.read, h2, h4]⟩)
    obtain ⟨m, h1, h2, h3⟩ := hload
    have hm : m = s.mem := by
      funext c
      by_cases hc : c ∈ order
      · exact h2 c hc
      · rw [h3 c hc]
        rcases hinv c with ⟨_, h, _⟩ | ⟨f, out, b, e, _, _, _, h, _⟩
        · exact h.symm
        · exact absurd ((hfine c).2 (by simp [h])) hc
    simp only [step, h1, absStep, hm, true_and]
    exact hinv
  | get env c fn =>
    rcases hinv c with ⟨ha, hm, hk⟩ | ⟨f, out, b, e, ha, hb, hm, hk, he, hj⟩
    · obtain ⟨dir, b, hlog, hb, hex⟩ := hfine
      obtain ⟨out, hout⟩ := Option.isSome_iff_exists.1 hex
      obtain ⟨files, ⟨f, log⟩⟩ := fn
      simp only at hlog hout
      subst hlog
      obtain ⟨ops, hops, hent, e, h1, h2, h3⟩ := storeOps_all cd { s.disk with outside := files } c
        env.files f dir b out hb hout
      have hstore : store cd { s with disk := { s.disk with outside := files } } env c
          ⟨f, some (.outside dir b)⟩ = (⟨runOps { s.disk with outside := files } ops,
            set s.mem c (some ⟨f, some (.cached c b)⟩)⟩, .ok ()) := by
        unfold store
        rw [hk, hops]
        cases env.rmFails <;> rfl
      have hget : get cd s env c (files, ⟨f, some (.outside dir b)⟩) =
          (⟨runOps { s.disk with outside := files } ops,
            set s.mem c (some ⟨f, some (.cached c b)⟩)⟩, ⟨true, .ok ⟨f, some (.outside dir b)⟩⟩) := by
        simp only [get, hm, hstore]
      refine ⟨?_, ?_⟩
      · simp [step, hget, absStep, ha, outputOf, Except.map, Disk.read, runOps_outside]
      · simp only [step, hget, absStep, ha, outputOf, hout, Option.map_some]
        intro x
        by_cases hx : x = c
        · subst hx
          exact .inr ⟨f, out, b, e, set_self .., hb, set_self .., h1, h2, h3⟩
        · show (_ ∧ set s.mem c _ x = none ∧ (runOps _ ops).cache x = none) ∨ ∃ f' out' b' e', _ ∧ _
            ∧ set s.mem c _ x = some _ ∧ (runOps _ ops).cache x = some e' ∧ _
          rw [set_other _ _ hx, set_other _ _ hx, runOps_elsewhere _ _ hx hent]
          exact hinv x
    · have hget : get cd s env c fn = (s, ⟨false, .ok ⟨f, some (.cached c b)⟩⟩) := by
        simp only [get, hm]
      refine ⟨?_, ?_⟩
      · simp [step, hget, absStep, ha, Except.map, Disk.read, hk, he]
      · simpa only [step, hget, absStep, ha] using hinv

/-! ## The properties -/

/-- **C40**, histories: the cache is a map from checksums to the result and output computed first. -/
theorem C40_history {β : Type} (cd : Codec β) (good : cd.Good) (s : State β) (a : Abs β)
    (es : List (Event β)) (hinv : Inv cd s a) (hfine : FineRun cd s es) :
    run cd s es = absRun a es := by
  induction es generalizing s a with
  | nil => rfl
  | cons e es ih =>
    obtain ⟨h1, h2⟩ := step_inv cd good s a e hinv hfine.1
    simp only [run, absRun, h1, ih _ _ h2 hfine.2]

/-- The cache before anything was stored. -/
def State.empty {β : Type} (files : Name → Name → Option Bytes) : State β :=
  ⟨⟨files, fun _ => none⟩, fun _ => none⟩

theorem inv_empty {β : Type} (cd : Codec β) (files : Name → Name → Option Bytes) :
    Inv cd (State.empty files) fun _ => none := fun _ => .inl ⟨rfl, rfl, rfl⟩

/-- Was this the observation of a `get` that ran the function for `c`? -/
def Obs.ranFor {β : Type} (c : Name) : Obs β → Bool
  | .got c' ran _ => ran && decide (c' = c)
  | _ => false

theorem absRun_stored {β : Type} (a : Abs β) (es : List (Event β))
    (c : Name) (f : β) (out : Bytes) (h : a c = some (f, out)) :
    (absRun a es).countP (Obs.ranFor c) = 0 ∧
    ∀ ran r, Obs.got c ran r ∈ absRun a es → r = .ok (f, some out) := by
  induction es generalizing a with
  | nil => simp [absRun]
  | cons e es ih =>
    have hstep : (absStep a e).1 c = some (f, out) ∧ (absStep a e).2.ranFor c = false ∧
        ∀ ran r, (absStep a e).2 = Obs.got c ran r → r = .ok (f, some out) := by
      cases e with
      | outside files => simp [absStep, h, Obs.ranFor]
      | restart order => simp [absStep, h, Obs.ranFor]
      | get env c' fn =>
        by_cases hc : c' = c
        · subst hc
          simp only [absStep, h, Obs.ranFor, Bool.false_and, true_and]
          intro ran r heq
          cases heq
          rfl
        · simp only [absStep]
          cases ha : a c' with
          | some x => simp [h, Obs.ranFor, hc]
          | none => simp [Obs.ranFor, hc, set, Ne.symm hc, h]
    obtain ⟨h1, h2, h3⟩ := hstep
    obtain ⟨h4, h5⟩ := ih _ h1
    refine ⟨by simp [absRun, h4, h2], fun ran r hr => ?_⟩
    simp only [absRun, List.mem_cons] at hr
    rcases hr with hr | hr
    · exact h3 ran r hr.symm
    · exact h5 ran r hr

/-- Functions that are run give an output. -/
def Event.Computes {β : Type} : Event β → Prop
  | .get _ _ fn => (outputOf fn).isSome
  | _ => True

theorem fine_computes {β : Type} (cd : Codec β) (s : State β) (es : List (Event β))
    (h : FineRun cd s es) : ∀ e ∈ es, e.Computes := by
  induction es generalizing s with
  | nil => simp
  | cons e es ih =>
    intro x hx
    simp only [List.mem_cons] at hx
    rcases hx with rfl | hx
    · cases x with
      | get env c fn =>
        obtain ⟨dir, b, h1, _, h2⟩ := h.1
        simpa [Event.Computes, outputOf, h1] using h2
      | restart => trivial
      | outside => trivial
    · exact ih _ h.2 x hx

theorem absRun_spec {β : Type} (a : Abs β) (es : List (Event β)) (hes : ∀ e ∈ es, e.Computes)
    (c : Name) :
    (absRun a es).countP (Obs.ranFor c) ≤ 1 ∧
    ∀ ran r ran' r', Obs.got c ran r ∈ absRun a es → Obs.got c ran' r' ∈ absRun a es →
      r = r' ∧ ∃ f out, r = .ok (f, some out) := by
  induction es generalizing a with
  | nil => simp [absRun]
  | cons e es ih =>
    cases ha : a c with
    | some x =>
      obtain ⟨h1, h2⟩ := absRun_stored a (e :: es) c x.1 x.2 ha
      exact ⟨by omega, fun ran r ran' r' h h' =>
        ⟨(h2 _ _ h).trans (h2 _ _ h').symm, _, _, h2 _ _ h⟩⟩
    | none =>
      have ih' := ih (absStep a e).1 fun e he => hes e (by simp [he])
      by_cases hg : ∃ env fn, e = .get env c fn
      · obtain ⟨env, fn, rfl⟩ := hg
        have hcomp : (outputOf fn).isSome := hes (.get env c fn) (by simp)
        obtain ⟨out, hout⟩ := Option.isSome_iff_exists.1 hcomp
        obtain ⟨h1, h2⟩ := absRun_stored (absStep a (.get env c fn)).1 es c fn.2.fields out
          (by simp [absStep, ha, set, hout])
        have hobs : (absStep a (.get env c fn)).2 = .got c true (.ok (fn.2.fields, some out)) := by
          simp [absStep, ha, hout]
        have key : ∀ ran r, Obs.got c ran r ∈ absRun a (.get env c fn :: es) →
            r = .ok (fn.2.fields, some out) := by
          intro ran r h
          simp only [absRun, hobs, List.mem_cons] at h
          rcases h with h | h
          · cases h; rfl
          · exact h2 _ _ h
        refine ⟨by simp [absRun, h1, hobs, Obs.ranFor], fun ran r ran' r' h h' =>
          ⟨(key _ _ h).trans (key _ _ h').symm, _, _, key _ _ h⟩⟩
      · have hno : (absStep a e).2.ranFor c = false ∧ ∀ ran r, Obs.got c ran r ≠ (absStep a e).2 := by
          cases e with
          | outside files => simp [absStep, Obs.ranFor]
          | restart order => simp [absStep, Obs.ranFor]
          | get env c' fn =>
            have hc : c' ≠ c := fun h => hg ⟨env, fn, by rw [h]⟩
            simp only [absStep]
            cases a c' <;> simp [Obs.ranFor, hc, Ne.symm hc]
        refine ⟨by simpa [absRun, hno.1] using ih'.1, fun ran r ran' r' h h' => ?_⟩
        simp only [absRun, List.mem_cons, hno.2, false_or] at h h'
        exact ih'.2 _ _ _ _ h h'

/-- **C40**: the function is run at most once for each checksum, in every history that begins with an
empty cache. -/
theorem C40_once {β : Type} (cd : Codec β) (good : cd.Good) (files : Name → Name → Option Bytes)
    (es : List (Event β)) (hfine : FineRun cd (State.empty files) es) (c : Name) :
    (run cd (State.empty files) es).countP (Obs.ranFor c) ≤ 1 := by
  rw [C40_history cd good _ _ es (inv_empty cd files) hfine]
  exact (absRun_spec _ es (fine_computes cd _ es hfine) c).1

/-- **C40**: all calls for a checksum give the same fields and the same output, and none of them
raises. -/
theorem C40_same {β : Type} (cd : Codec β) (good : cd.Good) (files : Name → Name → Option Bytes)
    (es : List (Event β)) (hfine : FineRun cd (State.empty files) es) (c : Name)
    (ran : Bool) (r : Except Exn (β × Option Bytes)) (ran' : Bool) (r' : Except Exn (β × Option Bytes))
    (h : Obs.got c ran r ∈ run cd (State.empty files) es)
    (h' : Obs.got c ran' r' ∈ run cd (State.empty files) es) :
    r = r' ∧ ∃ f out, r = .ok (f, some out) := by
  rw [C40_history cd good _ _ es (inv_empty cd files) hfine] at h h'
  exact (absRun_spec _ es (fine_computes cd _ es hfine) c).2 _ _ _ _ h h'

/-- **C40**: when the function is run, what `get` returns is what it computed. -/
theorem C40_computed {β : Type} (cd : Codec β) (good : cd.Good) (s : State β) (a : Abs β)
    (hinv : Inv cd s a) (env : Env) (c : Name) (fn : (Name → Name → Option Bytes) × Data β)
    (hfine : (Event.get env c fn).Fine s) (hran : (get cd s env c fn).2.ran = true) :
    (get cd s env c fn).2.result = .ok fn.2 := by
  have h := (step_inv cd good s a (.get env c fn) hinv hfine).1
  cases hm : s.mem c with
  | some d => simp [get, hm] at hran
  | none =>
    simp only [get, hm] at hran ⊢
    rcases hs : store cd { s with disk := { s.disk with outside := fn.1 } } env c fn.2 with ⟨s2, e | u⟩
    · simp only [step, get, hm, hs, absStep] at h
      rcases hinv c with ⟨ha, _⟩ | ⟨f, out, b, e', _, _, hm', _⟩
      · simp [ha, Except.map] at h
      · rw [hm] at hm'; cases hm'
    · rfl

/-- **C40**: loading the cache never fails in these histories. -/
theorem C40_load {β : Type} (cd : Codec β) (good : cd.Good) (files : Name → Name → Option Bytes)
    (es : List (Event β)) (hfine : FineRun cd (State.empty files) es) (e : Exn) :
    Obs.loaded (.error e) ∉ run cd (State.empty files) es := by
  rw [C40_history cd good _ _ es (inv_empty cd files) hfine]
  generalize (fun _ => none : Abs β) = a
  clear hfine
  induction es generalizing a with
  | nil => simp [absRun]
  | cons x es ih =>
    simp only [absRun, List.mem_cons, not_or]
    refine ⟨?_, ih _⟩
    cases x with
    | outside => simp [absStep]
    | restart => simp [absStep]
    | get env c fn => simp only [absStep]; cases a c <;> simp

/-- **C40**: whatever is on disk, a load that returns has put into memory only entries whose data was read
from their file and whose log is there to be read; the entries named in the directory that have a log
are all there, the others are as before. -/
theorem C40_loaded {β : Type} (cd : Codec β) (k : Disk) (order : List Name) (m m' : Mem β)
    (h : load cd k m order = .ok m') (c : Name) :
    (c ∉ order → m' c = m c) ∧
    (c ∈ order → ∃ bytes d p, k.read (.cached c jsonName) = some bytes ∧ cd.parse bytes = some d ∧
      d.log = some p ∧ ((k.read p).isSome → m' c = some d) ∧ (k.read p = none → m' c = m c)) := by
  induction order generalizing m with
  | nil => simp only [load, Except.ok.injEq] at h; simp [h]
  | cons x order ih =>
    simp only [load] at h
    split at h
    · cases h
    rename_i m1 hm1
    obtain ⟨i1, i2⟩ := ih m1 h
    have key : ∃ bytes d p, k.read (.cached x jsonName) = some bytes ∧ cd.parse bytes = some d ∧
        d.log = some p ∧ m1 = if (k.read p).isSome then set m x (some d) else m := by
      unfold tryLoad at hm1
      split at hm1
      · cases hm1
      split at hm1
      · cases hm1
      split at hm1
      · cases hm1
      rename_i bytes hb _ d hd _ p hp
      refine ⟨bytes, d, p, hb, hd, hp, ?_⟩
      split at hm1
      · rename_i hs; rw [if_pos hs]; exact (Except.ok.inj hm1).symm
      · rename_i hs; rw [if_neg hs]; exact (Except.ok.inj hm1).symm
    obtain ⟨bytes, d, p, hb, hd, hp, rfl⟩ := key
    have other : ∀ c, c ≠ x → (if (k.read p).isSome then set m x (some d) else m) c = m c := by
      intro c hc
      split
      · simp [set, hc]
      · rfl
    constructor
    · intro hc
      simp only [List.mem_cons, not_or] at hc
      rw [i1 hc.2, other c hc.1]
    · intro hc
      by_cases hcx : c = x
      · subst hcx
        refine ⟨bytes, d, p, hb, hd, hp, ?_, ?_⟩
        · intro hs
          by_cases hco : c ∈ order
          · obtain ⟨b2, d2, p2, e1, e2, e3, e4, _⟩ := i2 hco
            rw [hb] at e1; cases e1
            rw [hd] at e2; cases e2
            rw [hp] at e3; cases e3
            exact e4 hs
          · rw [i1 hco, if_pos hs]; simp [set]
        · intro hs
          have hs' : ¬ (k.read p).isSome = true := by rw [hs]; simp
          by_cases hco : c ∈ order
          · obtain ⟨b2, d2, p2, e1, e2, e3, _, e5⟩ := i2 hco
            rw [hb] at e1; cases e1
            rw [hd] at e2; cases e2
            rw [hp] at e3; cases e3
            rw [e5 hs, if_neg hs']
          · rw [i1 hco, if_neg hs']
      · obtain ⟨b2, d2, p2, e1, e2, e3, e4, e5⟩ := i2 ((List.mem_cons.1 hc).resolve_left hcx)
        exact ⟨b2, d2, p2, e1, e2, e3, e4, fun hs => by rw [e5 hs, other c hcx]⟩

/-! ### Crashes -/

/-- A load of a directory with an entry that cannot be read fails. -/
theorem load_broken {β : Type} (cd : Codec β) (k : Disk) (c : Name) (order : List Name) (hc : c ∈ order)
    (hbad : ∀ x, k.read (.cached c jsonName) = some x → cd.parse x = none) (m : Mem β) :
    load cd k m order = .error .attributeError := by
  induction order generalizing m with
  | nil => simp at hc
  | cons x xs ih =>
    have herr : ∀ e, tryLoad cd k m x = .error e → e = .attributeError := by
      intro e he
      unfold tryLoad at he
      repeat' split at he
      all_goals cases he <;> rfl
    cases ht : tryLoad cd k m x with
    | error e => simp only [load, ht, herr e ht]
    | ok m' =>
      simp only [load, ht]
      refine ih ?_ m'
      rcases List.mem_cons.1 hc with rfl | h
      · exfalso
        unfold tryLoad at ht
        cases hr : k.read (.cached c jsonName) with
        | none => simp [hr] at ht
        | some y => simp [hr, hbad y hr] at ht
      · exact h

/-- **C40** does not hold for crashes: for every entry, when the program is stopped after the directory
was made and before the last byte was written, every later load of the cache raises `AttributeError`,
whatever else is in the cache. -/
theorem C40_crash_violated {β : Type} (cd : Codec β) (good : cd.Good) (k : Disk) (c : Name)
    (files : List Name) (f : β) (dir b : Name) (out : Bytes) (hb : b ≠ jsonName)
    (hout : k.outside dir b = some out) (n : Nat)
    (h1 : (rmtree k c files).length < n)
    (h2 : n < (storeOps cd k c files ⟨f, some (.outside dir b)⟩).1.length)
    (order : List Name) (hc : c ∈ order) :
    load cd (runOps k ((storeOps cd k c files ⟨f, some (.outside dir b)⟩).1.take n)) (fun _ => none)
      order = .error .attributeError := by
  have hread : (runOps k (rmtree k c files ++ [.mkdir c])).read (.outside dir b) = some out := by
    simp [Disk.read, runOps_outside, hout]
  simp only [storeOps, hread, Path.base] at h2 ⊢
  refine load_broken cd _ c order hc ?_ _
  generalize hd : (⟨f, some (.cached c b)⟩ : Data β) = d' at h2 ⊢
  intro x hx
  rw [List.append_assoc, List.take_append, runOps_append,
    List.take_of_length_le (by simp; omega)] at hx
  generalize hn' : n - (rmtree k c files ++ [Op.mkdir c]).length = n' at hx
  have hlen : n' < (writeFile c b out).length + (writeFile c jsonName (cd.render d')).length := by
    simp at h2 hn' ⊢; omega
  rw [List.take_append, runOps_append] at hx
  have hcache := mkdir_cache k c (rmtree k c files)
  -- the log
  have hlog : ∃ e, (runOps (runOps k (rmtree k c files ++ [.mkdir c]))
      ((writeFile c b out).take n')).cache c = some e ∧ e jsonName = none := by
    cases n' with
    | zero => exact ⟨_, by simpa [runOps] using hcache, rfl⟩
    | succ n' =>
      obtain ⟨e, g1, _, g3⟩ := writeFile_prefix c b out _ _ n' hcache
      exact ⟨e, g1, by rw [g3 _ (Ne.symm hb)]⟩
  obtain ⟨e, g1, g2⟩ := hlog
  generalize hk : n' - (writeFile c b out).length = j at hx
  cases j with
  | zero => simp [runOps, Disk.read] at hx g1; simp [g1, g2] at hx
  | succ j =>
    obtain ⟨e', g3, g4, _⟩ := writeFile_prefix c jsonName (cd.render d') _ _ j g1
    simp only [Disk.read, g3, Option.bind_some, g4, Option.some.injEq] at hx
    subst hx
    refine good.cut d' _ (List.take_prefix ..) fun h => ?_
    have := congrArg List.length h
    simp [writeFile] at this hlen hk
    omega

/-- **C40**, crashes, what holds: when the program is stopped before the directory is made, or after
the last byte was written, a later load succeeds if it would have succeeded without the call, for an
entry that was not there before.  (Full statement: the same for every point.) -/
theorem C40_crash_partial {β : Type} (cd : Codec β) (good : cd.Good) (s : State β) (a : Abs β)
    (hinv : Inv cd s a) (c : Name) (hnew : a c = none) (files : List Name) (f : β) (dir b : Name)
    (hb : b ≠ jsonName) (hout : (s.disk.outside dir b).isSome) (n : Nat)
    (hn : n = 0 ∨ (storeOps cd s.disk c files ⟨f, some (.outside dir b)⟩).1.length ≤ n)
    (order : List Name)
    (horder : ∀ x, x ∈ order ↔ ((runOps s.disk
      ((storeOps cd s.disk c files ⟨f, some (.outside dir b)⟩).1.take n)).cache x).isSome) :
    ∃ m, load cd (runOps s.disk ((storeOps cd s.disk c files ⟨f, some (.outside dir b)⟩).1.take n))
      (fun _ => none) order = .ok m ∧ ∀ x, x ≠ c → m x = s.mem x := by
  obtain ⟨out, hout⟩ := Option.isSome_iff_exists.1 hout
  obtain ⟨ops, hops, hent, e, h1, h2, h3⟩ := storeOps_all cd s.disk c files f dir b out hb hout
  rw [hops] at hn horder ⊢
  simp only at hn horder ⊢
  have hnone : s.disk.cache c = none := by
    rcases hinv c with ⟨_, _, h⟩ | ⟨_, _, _, _, h, _⟩
    · exact h
    · rw [hnew] at h; cases h
  have hcase : (ops.take n).foldl Op.run s.disk = s.disk ∨ ops.take n = ops := by
    rcases hn with rfl | hn
    · exact .inl rfl
    · exact .inr (List.take_of_length_le hn)
  have helse : ∀ x, x ≠ c → (runOps s.disk (ops.take n)).cache x = s.disk.cache x := fun x hx =>
    runOps_elsewhere _ _ hx fun op hop => hent op (List.mem_of_mem_take hop)
  obtain ⟨m, g1, g2, g3⟩ := load_complete cd good (runOps s.disk (ops.take n))
    (fun x => if x = c then some ⟨f, some (.cached c b)⟩ else s.mem x) order (fun _ => none) (by
      intro x hx
      by_cases hxc : x = c
      · subst hxc
        rcases hcase with hk | hk
        · have := (horder x).1 hx
          simp only [runOps] at this
          rw [hk, hnone] at this
          simp at this
        · rw [hk]
          exact ⟨⟨f, some (.cached x b)⟩, .cached x b, if_pos rfl, rfl, by simp [Disk.read, h1, h2],
            by simp [Disk.read, h1, h3]⟩
      · have hk := helse x hxc
        rcases hinv x with ⟨_, _, h⟩ | ⟨f', out', b', e', _, _, k1, k2, k3, k4⟩
        · have := (horder x).1 hx
          rw [hk, h] at this
          simp at this
        · exact ⟨_, _, by simp [hxc]; exact k1, rfl, by simp [Disk.read, hk, k2, k3],
            by simp [Disk.read, hk, k2, k4]⟩)
  refine ⟨m, g1, fun x hx => ?_⟩
  by_cases hxo : x ∈ order
  · rw [g2 x hxo]; simp [hx]
  · rw [g3 x hxo]
    rcases hinv x with ⟨_, h, _⟩ | ⟨_, _, _, e', _, _, _, k2, _⟩
    · exact h.symm
    · exact absurd ((horder x).2 (by rw [helse x hx, k2]; rfl)) hxo

/-- **C40** does not hold: a job that gave a result without a log file (there was no execution
controller for it, runner.py lines 785-788) makes `get` raise `KeyError`, and every later load of the
cache raises `AttributeError`. -/
theorem C40_no_log_violated {β : Type} (cd : Codec β) (s : State β) (c : Name) (files : List Name)
    (f : β) (hnew : s.mem c = none) (outside : Name → Name → Option Bytes) (order : List Name)
    (hc : c ∈ order) :
    let r := get cd s ⟨files, none⟩ c (outside, ⟨f, none⟩)
    r.2.result = .error .keyError ∧ load cd r.1.disk (fun _ => none) order = .error .attributeError := by
  have h : get cd s ⟨files, none⟩ c (outside, ⟨f, none⟩) = (⟨runOps { s.disk with outside := outside }
      (rmtree { s.disk with outside := outside } c files ++ [.mkdir c]), s.mem⟩,
      ⟨true, .error .keyError⟩) := by
    simp only [get, hnew, store, storeOps]
  rw [h]
  refine ⟨rfl, load_broken cd _ c order hc ?_ _⟩
  intro x hx
  simp [Disk.read, mkdir_cache] at hx

/-- **C40** does not hold: an entry whose log has gone is not loaded, and when it cannot be removed the
function is run by every call. -/
theorem C40_once_violated {β : Type} (cd : Codec β) (s : State β) (c : Name) (files : List Name)
    (e : Name → Option Bytes) (hnew : s.mem c = none) (hold : s.disk.cache c = some e)
    (fn fn' : (Name → Name → Option Bytes) × Data β) :
    let r := get cd s ⟨files, some 0⟩ c fn
    r.2.ran = true ∧ (get cd r.1 ⟨files, some 0⟩ c fn').2.ran = true := by
  have h : get cd s ⟨files, some 0⟩ c fn =
      ({ s with disk := { s.disk with outside := fn.1 } }, ⟨true, .ok fn.2⟩) := by
    simp [get, hnew, store, hold, runOps]
  rw [h]
  refine ⟨rfl, ?_⟩
  simp [get, hnew, store, hold]

/-! ## Concrete cases -/

theorem Path.countable : Countable Path := by
  have : Countable Char := ⟨⟨Char.toNat, fun a b h => Char.toNat_inj.1 h⟩⟩
  refine Function.Injective.countable (β := (Name × Name) ⊕ (Name × Name))
    (f := fun | .outside a b => .inl (a, b) | .cached a b => .inr (a, b)) ?_
  rintro (⟨a, b⟩ | ⟨a, b⟩) (⟨a', b'⟩ | ⟨a', b'⟩) h <;> simp_all

/-- There is a codec as assumed. -/
theorem exists_good : ∃ cd : Codec Unit, cd.Good := by
  classical
  have := Path.countable
  have hc : Countable (Data Unit) :=
    Function.Injective.countable (β := Option Path) (f := Data.log) (by
      rintro ⟨_, a⟩ ⟨_, b⟩ h; simp_all)
  obtain ⟨f, hf⟩ := hc.exists_injective_nat
  have hinj : ∀ n m : Nat, List.replicate n (1 : UInt8) ++ [0] <+: List.replicate m 1 ++ [0] → n = m := by
    intro n
    induction n with
    | zero => intro m h; cases m with
      | zero => rfl
      | succ m => simp [List.replicate_succ] at h
    | succ n ih => intro m h; cases m with
      | zero => simp [List.replicate_succ] at h
      | succ m =>
        simp only [List.replicate_succ, List.cons_append, List.cons_prefix_cons, true_and] at h
        rw [ih m h]
  refine ⟨⟨fun d => List.replicate (f d) 1 ++ [0], fun x =>
    if h : ∃ d, List.replicate (f d) 1 ++ [0] = x then some h.choose else none⟩, ?_, ?_⟩
  · intro d
    have h : ∃ d', List.replicate (f d') (1 : UInt8) ++ [0] = List.replicate (f d) 1 ++ [0] := ⟨d, rfl⟩
    simp only
    rw [dif_pos h]
    exact congrArg some (hf (hinj _ _ (by rw [h.choose_spec])))
  · intro d p hp hne
    simp only at hp hne ⊢
    rw [dif_neg]
    rintro ⟨d', rfl⟩
    exact hne (by rw [hinj _ _ hp])

/-- The files outside of the cache in the example: `d/l` has two bytes. -/
def demoFiles : Name → Name → Option Bytes := fun d b => if d = ['d'] ∧ b = ['l'] then some [1, 2] else none

/-- The result computed in the example. -/
def demoFn : (Name → Name → Option Bytes) × Data Unit := (demoFiles, ⟨(), some (.outside ['d'] ['l'])⟩)

/-- Two calls for one checksum and one for another: the function is run for the first and the third. -/
example (cd : Codec Unit) (good : cd.Good) :
    run cd (State.empty demoFiles) [.get ⟨[], none⟩ ['c'] demoFn,
        .outside (fun _ _ => none), .get ⟨[], none⟩ ['c'] demoFn, .get ⟨[], none⟩ ['e'] demoFn] =
      [.got ['c'] true (.ok ((), some [1, 2])), .quiet, .got ['c'] false (.ok ((), some [1, 2])),
        .got ['e'] true (.ok ((), some [1, 2]))] := by
  have hf : ∀ (s : State Unit) env c, (Event.get env c demoFn).Fine s := fun _ _ _ =>
    ⟨['d'], ['l'], rfl, by decide, rfl⟩
  have hfine : FineRun cd (State.empty demoFiles) [.get ⟨[], none⟩ ['c'] demoFn,
      .outside (fun _ _ => none), .get ⟨[], none⟩ ['c'] demoFn, .get ⟨[], none⟩ ['e'] demoFn] :=
    ⟨hf _ _ _, trivial, hf _ _ _, hf _ _ _, trivial⟩
  rw [C40_history cd good _ _ _ (inv_empty cd _) hfine]
  rfl

/-- An entry whose log was removed by someone is left out by a load, one with its log is not. -/
example (cd : Codec Unit) (good : cd.Good) :
    let d : Data Unit := ⟨(), some (.cached ['c'] ['l'])⟩
    let k : Option Bytes → Disk := fun log => ⟨demoFiles, fun c => if c = ['c'] then
      some fun b => if b = jsonName then some (cd.render d) else if b = ['l'] then log else none else none⟩
    (∃ m, load cd (k none) (fun _ => none) [['c']] = .ok m ∧ m ['c'] = none) ∧
    (∃ m, load cd (k (some [1])) (fun _ => none) [['c']] = .ok m ∧ m ['c'] = some d) := by
  have hn : ['l'] ≠ jsonName := by decide +kernel
  intro d k
  have hj : ∀ log, (k log).read (.cached ['c'] jsonName) = some (cd.render d) := by
    intro log; simp [k, Disk.read]
  have hl : ∀ log, (k log).read (.cached ['c'] ['l']) = log := by
    intro log; simp [k, Disk.read, hn]
  have hload : ∀ log, load cd (k log) (fun _ => none) [['c']] =
      if log.isSome then .ok (set (fun _ => none) ['c'] (some d)) else .ok fun _ => none := by
    intro log
    simp only [load, tryLoad, hj, good.back, d, hl]
    cases log <;> rfl
  constructor
  · exact ⟨_, hload none, rfl⟩
  · exact ⟨_, hload (some [1]), by simp [set]⟩

/-- Crash points as in `C40_crash_violated` exist: after the directory was made. -/
example (cd : Codec Unit) (good : cd.Good) :
    load cd (runOps ⟨demoFiles, fun _ => none⟩
      ((storeOps cd ⟨demoFiles, fun _ => none⟩ ['c'] [] demoFn.2).1.take 3)) (fun _ => none) [['c']]
      = .error .attributeError :=
  C40_crash_violated cd good ⟨demoFiles, fun _ => none⟩ ['c'] [] () ['d'] ['l'] [1, 2] (by decide) rfl 3
    (by decide) (by
      have : ∃ n, (storeOps cd ⟨demoFiles, fun _ => none⟩ ['c'] [] demoFn.2).1.length = n + 4 :=
        ⟨_, rfl⟩
      obtain ⟨n, hn⟩ := this
      have h2 : demoFn.2 = ⟨(), some (.outside ['d'] ['l'])⟩ := rfl
      rw [← h2, hn]; omega) _ (by simp)

end Verif.Cache
