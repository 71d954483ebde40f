import Verif.Model.Logs
import Verif.Lemmas.Text

/-!
# C144: where messages go

The specification is a table: for every place, how often a message with some level gets there. It speaks of the logger by its
name, and of what was asked for as a list of adjustments.
-/

namespace Verif.Logs

/-! ## Specification -/

/-- What is asked for by the environment or the command line. -/
structure Adj where
  level : Option String
  traces : List Name
  console : Bool

/-- The adjustments, one after the other. -/
def run (s : State) : List Adj → Option State
  | [] => some s
  | a :: as => (adjust a.level a.traces a.console s).bind fun s => run s as

/-- Whether debugging messages were asked for in the console, by an adjustment that asks for some. -/
def Shown (as : List Adj) : Prop := ∃ a ∈ as, a.console = true ∧ (a.level = some "DEBUG" ∨ a.traces ≠ [])

/-- How often a message with a level that is enabled gets to a place: `crash`, `bug` tell whether the logger is the one for
crashes or bugs, or below. -/
def wanted (shown crash bug : Prop) [Decidable shown] [Decidable crash] [Decidable bug] (l : Nat) : Dest → Nat
  | .stdout => if l = 20 ∨ (shown ∧ l = 10) then 1 else 0
  | .stderr => if l = 30 ∨ 40 ≤ l then 1 else 0
  | .debugLog => if l ≤ 10 then 1 else 0
  | .problemLog => if 30 ≤ l then 1 else 0
  | .crashLog => if crash ∧ 40 ≤ l then 1 else 0
  | .bugLog => if bug then 1 else 0

/-! ## Invariant -/

/-- The handlers by name, after the console was asked for or not. -/
def knownOf (b : Bool) (hs : List (HName × Handler)) : List (HName × Handler) :=
  if b then hs.map fun p => if p.1 = .consoleDebug then (p.1, { p.2 with level := 10 }) else p else hs

/-- What no adjustment changes, and the handlers. -/
structure Inv (cfg : Cfg) (e : List Name) (b : Bool) (s : State) : Prop where
  handlers : s.handlers = (dictConfig cfg (State.fresh e)).handlers
  disabled : s.disabled = (dictConfig cfg (State.fresh e)).disabled
  known : s.known = knownOf b cfg.handlers

theorem inv_start (cfg : Cfg) (e : List Name) : Inv cfg e false (dictConfig cfg (State.fresh e)) := ⟨rfl, rfl, rfl⟩

theorem inv_set {cfg : Cfg} {e : List Name} {b : Bool} {s : State} (h : Inv cfg e b s) (n : Name) (l : Nat) :
    Inv cfg e b (s.setLevel n l) := ⟨h.handlers, h.disabled, h.known⟩

theorem inv_trace {cfg : Cfg} {e : List Name} {b : Bool} : ∀ (ns : List Name) {s : State}, Inv cfg e b s →
    Inv cfg e b (s.trace ns)
  | [], _, h => h
  | n :: ns, _, h => inv_trace ns (inv_set h n 10)

theorem inv_bump {cfg : Cfg} {e : List Name} {b : Bool} {s s' : State} (h : Inv cfg e b s) {l : Option String}
    (hb : s.bump l = some s') : Inv cfg e b s' := by
  cases l with
  | none => cases hb; exact h
  | some t =>
    unfold State.bump at hb
    dsimp only at hb
    cases hc : checkLevel t with
    | none => rw [hc] at hb; cases hb
    | some l => rw [hc] at hb; cases hb; exact inv_set (inv_set (inv_set h _ _) _ _) _ _

theorem known_any {hs : List (HName × Handler)} (h : hs.any (fun p => p.1 = .consoleDebug) = true) (b : Bool) :
    (knownOf b hs).any (fun p => p.1 = .consoleDebug) = true := by
  cases b with
  | false => exact h
  | true =>
    unfold knownOf
    rw [if_pos rfl]
    obtain ⟨p, hp, hd⟩ := List.any_eq_true.1 h
    refine List.any_eq_true.2 ⟨_, List.mem_map.2 ⟨p, hp, rfl⟩, ?_⟩
    rw [if_pos (of_decide_eq_true hd)]
    exact hd

theorem known_again (hs : List (HName × Handler)) (b : Bool) :
    (knownOf b hs).map (fun p => if p.1 = .consoleDebug then (p.1, { p.2 with level := 10 }) else p) = knownOf true hs := by
  cases b with
  | false => rfl
  | true =>
    unfold knownOf
    rw [if_pos rfl, List.map_map]
    refine List.map_congr_left fun p _ => ?_
    by_cases h : p.1 = .consoleDebug
    · simp [Function.comp, h]
    · simp [Function.comp, h]

theorem inv_debug {cfg : Cfg} {e : List Name} {b : Bool} {s : State} (h : Inv cfg e b s)
    (ha : cfg.handlers.any (fun p => p.1 = .consoleDebug) = true) : ∃ s', s.debugConsole = some s' ∧ Inv cfg e true s' := by
  unfold State.debugConsole
  rw [h.known, if_pos (known_any ha b)]
  exact ⟨_, rfl, h.handlers, h.disabled, known_again _ _⟩

/-- Whether one adjustment switches the console on. -/
def Adj.shows (a : Adj) : Bool := a.console && (a.level = some "DEBUG" || !a.traces.isEmpty)

theorem adjust_inv {cfg : Cfg} {e : List Name} {b : Bool} {s s' : State} (h : Inv cfg e b s)
    (hc : cfg.handlers.any (fun p => p.1 = .consoleDebug) = true) {a : Adj}
    (ha : adjust a.level a.traces a.console s = some s') : Inv cfg e (b || a.shows) s' := by
  unfold adjust at ha
  cases hb : s.bump a.level with
  | none => rw [hb] at ha; cases ha
  | some s1 =>
    rw [hb] at ha
    dsimp only at ha
    have h1 := inv_trace a.traces (inv_bump h hb)
    by_cases hw : a.shows = true
    · rw [hw, Bool.or_true]
      rw [if_pos (show (a.console && (decide (a.level = some "DEBUG") || !a.traces.isEmpty)) = true from hw)] at ha
      obtain ⟨s2, e2, h2⟩ := inv_debug h1 hc
      rw [e2] at ha; cases ha; exact h2
    · rw [Bool.eq_false_iff.2 hw, Bool.or_false]
      rw [if_neg (show ¬ (a.console && (decide (a.level = some "DEBUG") || !a.traces.isEmpty)) = true from hw)] at ha; cases ha; exact h1

theorem run_inv {cfg : Cfg} {e : List Name} (hc : cfg.handlers.any (fun p => p.1 = .consoleDebug) = true) :
    ∀ (as : List Adj) {b : Bool} {s s' : State}, Inv cfg e b s → run s as = some s' → Inv cfg e (b || as.any Adj.shows) s'
  | [], b, s, s', h, hr => by cases hr; simpa using h
  | a :: as, b, s, s', h, hr => by
    unfold run at hr
    cases ha : adjust a.level a.traces a.console s with
    | none => rw [ha] at hr; cases hr
    | some s1 =>
      rw [ha] at hr
      have := run_inv hc as (adjust_inv h hc ha) hr
      rw [List.any_cons, ← Bool.or_assoc]
      exact this

theorem shows_iff (as : List Adj) : as.any Adj.shows = true ↔ Shown as := by
  rw [List.any_eq_true]
  unfold Shown Adj.shows
  constructor
  · rintro ⟨a, ha, h⟩
    refine ⟨a, ha, ?_⟩
    simpa [Bool.and_eq_true, Bool.or_eq_true] using h
  · rintro ⟨a, ha, h⟩
    refine ⟨a, ha, ?_⟩
    simpa [Bool.and_eq_true, Bool.or_eq_true] using h

/-! ## Handlers -/

/-- What a handler does with a message, for the configuration with files. -/
def pick (b : Bool) (l : Nat) : HName → Option Dest
  | .consoleDebug => if b = true ∧ l = 10 then some .stdout else none
  | .consoleInfo => if l = 20 then some .stdout else none
  | .consoleWarning => if l = 30 then some .stderr else none
  | .consoleError => if 40 ≤ l then some .stderr else none
  | .fileDebug => if l ≤ 10 then some .debugLog else none
  | .fileError => if 30 ≤ l then some .problemLog else none
  | .fileCrash => if 40 ≤ l then some .crashLog else none
  | .fileBug => some .bugLog

theorem ite_same {P Q : Prop} [Decidable P] [Decidable Q] (h : P ↔ Q) (x : Dest) :
    (if P then some x else none) = if Q then some x else none := by
  by_cases hp : P
  · rw [if_pos hp, if_pos (h.1 hp)]
  · rw [if_neg hp, if_neg (fun hq => hp (h.2 hq))]

theorem accepts_iff (x : Handler) (l : Nat) : x.accepts l = true ↔ x.level ≤ l ∧ x.lo ≤ l ∧ ∀ m, x.hi = some m → l ≤ m := by
  unfold Handler.accepts
  cases hx : x.hi with
  | none => simp
  | some m => simp [and_assoc]

/-- The handlers, by name. -/
def conf (b : Bool) : HName → Handler
  | .consoleDebug => ⟨.stdout, if b then 10 else 150, 0, some 10⟩
  | .consoleInfo => ⟨.stdout, 0, 20, some 20⟩
  | .consoleWarning => ⟨.stderr, 0, 30, some 30⟩
  | .consoleError => ⟨.stderr, 40, 0, none⟩
  | .fileDebug => ⟨.debugLog, 0, 0, some 10⟩
  | .fileError => ⟨.problemLog, 30, 0, none⟩
  | .fileCrash => ⟨.crashLog, 40, 0, none⟩
  | .fileBug => ⟨.bugLog, 0, 0, none⟩

theorem lookup_conf (b : Bool) (h : HName) : lookup h (knownOf b fileHandlers) = some (conf b h) := by
  cases h <;> cases b <;> rfl

theorem conf_pick (b : Bool) (l : Nat) (h : HName) :
    (if (conf b h).accepts l then some (conf b h).dest else none) = pick b l h := by
  cases h <;> cases b <;> simp [conf, pick, accepts_iff] <;> (repeat' split) <;> first | rfl | (intros; omega) | (exfalso; omega)

theorem pick_eq (b : Bool) (l : Nat) (h : HName) :
    (match lookup h (knownOf b fileHandlers) with
      | none => none
      | some x => if x.accepts l then some x.dest else none) = pick b l h := by
  rw [lookup_conf]
  exact conf_pick b l h

/-! ## Loggers -/

/-- The handlers of `plainbox` and `checkbox`. -/
def six : List HName := [.consoleDebug, .consoleInfo, .consoleWarning, .consoleError, .fileError, .fileDebug]

theorem last_eq {q : List String} {r : String} {n : Name} (h : q ++ [r] = n) : n.getLast? = some r := by rw [← h]; simp

theorem find_file (q : List String) (r : String) (hq : q ≠ []) : Cfg.find (q ++ [r]) fileLoggers =
    if r = "plainbox" ∧ q = ["crashes"] then some ⟨["crashes", "plainbox"], some 40, [.fileCrash]⟩
    else if r = "plainbox" ∧ q = ["bug"] then some ⟨["bug", "plainbox"], none, [.fileBug]⟩ else none := by
  have one : ∀ x : String, ¬ [x] = q ++ [r] := fun x h => by
    cases q with
    | nil => exact hq rfl
    | cons a q => simp at h
  have two : ∀ x y : String, [x, y] = q ++ [r] ↔ r = y ∧ q = [x] := fun x y => by
    constructor
    · intro h
      have : [x] ++ [y] = q ++ [r] := h
      have := List.append_inj' this rfl
      exact ⟨by simpa using this.2.symm, this.1.symm⟩
    · rintro ⟨rfl, rfl⟩; rfl
  unfold fileLoggers
  rw [Cfg.find, if_neg (one _), Cfg.find, if_neg (one _), Cfg.find, Cfg.find, Cfg.find]
  simp only [two]

theorem handlers_file (e : List Name) (q : List String) (r : String) (hq : q ≠ []) :
    (dictConfig defaultCfg (State.fresh e)).handlers (q ++ [r]) =
      if r = "plainbox" ∧ q = ["crashes"] then [.fileCrash] else if r = "plainbox" ∧ q = ["bug"] then [.fileBug] else [] := by
  show (if q ++ [r] = [] then [] else _) = _
  rw [if_neg (by simp)]
  show (match Cfg.find (q ++ [r]) fileLoggers with | some c => c.handlers | none => _) = _
  rw [find_file q r hq]
  by_cases h1 : r = "plainbox" ∧ q = ["crashes"]
  · rw [if_pos h1, if_pos h1]
  · rw [if_neg h1, if_neg h1]
    by_cases h2 : r = "plainbox" ∧ q = ["bug"]
    · rw [if_pos h2, if_pos h2]
    · rw [if_neg h2, if_neg h2]
      dsimp only
      by_cases h3 : ((State.fresh e).exist.contains (q ++ [r]) && defaultCfg.isChild (q ++ [r])) = true
      · rw [if_pos h3]
      · rw [if_neg h3]; rfl

theorem suffix_single {x p : String} {l : List String} : [x] <:+ p :: l ↔ p :: l = [x] ∨ [x] <:+ l := by
  rw [List.suffix_cons_iff]
  constructor
  · rintro (h | h)
    · exact .inl h.symm
    · exact .inr h
  · rintro (h | h)
    · exact .inl h.symm
    · exact .inr h

theorem gather_file (e : List Name) {b : Bool} {s : State} (h : Inv defaultCfg e b s) (r : String)
    (hr : r = "plainbox" ∨ r = "checkbox") : ∀ pre : List String,
    s.gather (pre ++ [r]) = (if r = "plainbox" ∧ ["crashes"] <:+ pre then [.fileCrash] else []) ++
      (if r = "plainbox" ∧ ["bug"] <:+ pre then [.fileBug] else []) ++ six
  | [] => by
    show s.handlers [r] ++ s.handlers [] = _
    rw [h.handlers, if_neg (by simp), if_neg (by simp)]
    rcases hr with rfl | rfl <;> rfl
  | p :: pre => by
    have ih := gather_file e h r hr pre
    show s.handlers (p :: pre ++ [r]) ++ s.gather (pre ++ [r]) = _
    rw [ih, h.handlers, handlers_file e (p :: pre) r (by simp)]
    by_cases hp : r = "plainbox"
    · simp only [hp, true_and]
      by_cases h1 : p :: pre = ["crashes"]
      · have h0 : pre = [] := by simpa using congrArg List.tail h1
        rw [if_pos h1, if_pos (suffix_single.2 (.inl h1))]
        subst h0
        rw [if_neg (by simp), if_neg (by simp), if_neg]
        · rfl
        · rw [h1]; decide
      · rw [if_neg h1]
        by_cases h2 : p :: pre = ["bug"]
        · have h0 : pre = [] := by simpa using congrArg List.tail h2
          rw [if_pos h2, if_pos (suffix_single (x := "bug").2 (.inl h2))]
          subst h0
          rw [if_neg (by simp), if_neg (by simp), if_neg]
          · rfl
          · rw [h2]; decide
        · rw [if_neg h2]
          have e1 : (["crashes"] <:+ p :: pre) ↔ ["crashes"] <:+ pre := by
            rw [suffix_single]; exact or_iff_right h1
          have e2 : (["bug"] <:+ p :: pre) ↔ ["bug"] <:+ pre := by
            rw [suffix_single]; exact or_iff_right h2
          simp only [e1, e2, List.nil_append]
    · simp [hp]

theorem isChild_of {cfg : Cfg} {r : String} (h : (Cfg.find [r] cfg.loggers).isSome = true) :
    ∀ pre : List String, pre ≠ [] → cfg.isChild (pre ++ [r]) = true
  | [], hne => absurd rfl hne
  | [p], _ => by
    show ((Cfg.find [r] cfg.loggers).isSome || _) = true
    rw [h, Bool.true_or]
  | p :: q :: pre, _ => by
    show ((Cfg.find (q :: pre ++ [r]) cfg.loggers).isSome || cfg.isChild (q :: pre ++ [r])) = true
    rw [isChild_of h (q :: pre) (by simp), Bool.or_true]

theorem enabled_of {cfg : Cfg} {e : List Name} {b : Bool} {s : State} (hi : Inv cfg e b s) {r : String}
    (h : (Cfg.find [r] cfg.loggers).isSome = true) (pre : List String) : s.disabled (pre ++ [r]) = false := by
  rw [hi.disabled]
  show (false || (decide (pre ++ [r] ≠ []) && (Cfg.find (pre ++ [r]) cfg.loggers).isNone && e.contains (pre ++ [r]) &&
    !cfg.isChild (pre ++ [r]))) = false
  rw [Bool.false_or]
  cases pre with
  | nil =>
    have : (Cfg.find [r] cfg.loggers).isNone = false := by
      cases hf : Cfg.find [r] cfg.loggers with
      | none => rw [hf] at h; cases h
      | some _ => rfl
    rw [List.nil_append, this]
    simp
  | cons p pre =>
    rw [isChild_of h (p :: pre) (by simp)]
    simp

theorem log_eq {s : State} {n : Name} {l : Nat} (hd : s.disabled n = false) (hg : s.gather n ≠ []) :
    s.log n l = if s.effective n ≤ l then (s.gather n).filterMap fun h =>
      match lookup h s.known with
      | none => none
      | some x => if x.accepts l then some x.dest else none else [] := by
  unfold State.log
  rw [hd, Bool.false_or]
  by_cases h : s.effective n ≤ l
  · rw [if_pos h, if_neg (by simp; omega)]
    cases hs : s.gather n with
    | nil => exact absurd hs hg
    | cons a as => rfl
  · rw [if_neg h, if_pos (by simp; omega)]

theorem count_ite (P : Prop) [Decidable P] (x d : Dest) :
    (([if P then some x else none] : List (Option Dest)).filterMap id).count d = if P ∧ x = d then 1 else 0 := by
  by_cases h : P
  · by_cases hx : x = d
    · simp [h, hx]
    · simp [h, hx]
  · simp [h]

theorem count_six (b : Bool) (l : Nat) (d : Dest) :
    (six.filterMap (pick b l)).count d = wanted (b = true) False False l d := by
  have e : six.filterMap (pick b l) = [pick b l .consoleDebug].filterMap id ++ ([pick b l .consoleInfo].filterMap id ++
      ([pick b l .consoleWarning].filterMap id ++ ([pick b l .consoleError].filterMap id ++
      ([pick b l .fileError].filterMap id ++ [pick b l .fileDebug].filterMap id)))) := by
    unfold six
    generalize pick b l = f
    simp only [List.filterMap_cons, List.filterMap_nil, id]
    cases f .consoleDebug <;> cases f .consoleInfo <;> cases f .consoleWarning <;> cases f .consoleError <;>
      cases f .fileError <;> cases f .fileDebug <;> rfl
  rw [e]
  simp only [List.count_append, pick, count_ite]
  cases d <;> cases b <;> simp [wanted] <;> (repeat' split) <;> first | rfl | omega | (exfalso; omega)

theorem count_all (b : Bool) (P Q : Prop) [Decidable P] [Decidable Q] (l : Nat) (d : Dest) :
    (((if P then [HName.fileCrash] else []) ++ (if Q then [HName.fileBug] else []) ++ six).filterMap (pick b l)).count d =
      wanted (b = true) P Q l d := by
  rw [List.filterMap_append, List.filterMap_append, List.count_append, List.count_append, count_six]
  by_cases hP : P <;> by_cases hQ : Q <;> by_cases hl : 40 ≤ l <;> cases d <;> simp [wanted, hP, hQ, hl, pick]

/-- **C144**, with the log files: however logging was adjusted since it was set up, a message of a logger of plainbox or
checkbox that is not below the level of the logger gets exactly where it should, and as often: once to the console (information
to the standard output; warnings, errors and critical errors to the standard error; debugging messages to the standard output
if they were asked for in the console), debugging messages to `debug.log`, warnings and everything above to `problem.log`,
crashes to `crash.log` and bugs to `bug.log`. Other messages go nowhere. -/
theorem C144_where (e : List Name) (as : List Adj) (s : State)
    (hs : run (setup none true (State.fresh e)).1 as = some s) (r : String) (hr : r = "plainbox" ∨ r = "checkbox")
    (pre : List String) (l : Nat) (d : Dest) [Decidable (Shown as)] :
    (s.log (pre ++ [r]) l).count d =
      if s.effective (pre ++ [r]) ≤ l then
        wanted (Shown as) (r = "plainbox" ∧ ["crashes"] <:+ pre) (r = "plainbox" ∧ ["bug"] <:+ pre) l d
      else 0 := by
  have hi := run_inv (cfg := defaultCfg) (e := e) rfl as (inv_start _ _) hs
  rw [Bool.false_or] at hi
  have hf : (Cfg.find [r] defaultCfg.loggers).isSome = true := by rcases hr with rfl | rfl <;> rfl
  have hg := gather_file e hi r hr pre
  rw [log_eq (enabled_of hi hf pre) (by rw [hg]; simp [six]), hg]
  by_cases hl : s.effective (pre ++ [r]) ≤ l
  · rw [if_pos hl, if_pos hl, hi.known]
    have hp : (fun h => match lookup h (knownOf (as.any Adj.shows) defaultCfg.handlers) with
        | none => none
        | some x => if x.accepts l then some x.dest else none) = pick (as.any Adj.shows) l :=
      funext fun h => pick_eq _ l h
    rw [hp, count_all]
    have hsh := shows_iff as
    by_cases hS : Shown as
    · cases d <;> simp only [wanted, hsh]
    · cases d <;> simp only [wanted, hsh]
  · rw [if_neg hl, if_neg hl]; rfl

/-- Debugging asked for in the console for one logger: its messages are shown and written to the file, those of others are
not. -/
example : (run (setup none true (State.fresh [["x", "plainbox"]])).1 [⟨none, [["x", "plainbox"]], true⟩]).map
    (fun s => (s.log ["y", "x", "plainbox"] 10, s.log ["z", "plainbox"] 10, s.log ["crashes", "plainbox"] 50)) =
    some ([.stdout, .debugLog], [], [.crashLog, .stderr, .problemLog]) := by decide +kernel

/-! ## Without log files -/

theorem find_console (q : List String) (hq : q ≠ []) (hc : q ≠ ["crashes"]) :
    Cfg.find (q ++ ["plainbox"]) consoleLoggers = none := by
  unfold consoleLoggers
  rw [Cfg.find, if_neg, Cfg.find, if_neg, Cfg.find]
  · intro h
    have : ["crashes"] ++ ["plainbox"] = q ++ ["plainbox"] := h
    exact hc (List.append_inj' this rfl).1.symm
  · intro h
    cases q with
    | nil => exact hq rfl
    | cons a q => simp at h

/-- The handlers of `plainbox` in the console. -/
def four : List HName := [.consoleDebug, .consoleInfo, .consoleWarning, .consoleError]

theorem gather_console (e : List Name) {b : Bool} {s : State} (h : Inv consoleCfg e b s) : ∀ pre : List String,
    ¬ ["crashes"] <:+ pre → s.gather (pre ++ ["plainbox"]) = four
  | [], _ => by
    show s.handlers ["plainbox"] ++ s.handlers [] = _
    rw [h.handlers]; rfl
  | p :: pre, hn => by
    have ih := gather_console e h pre (fun hs => hn (suffix_single.2 (.inr hs)))
    show s.handlers (p :: pre ++ ["plainbox"]) ++ s.gather (pre ++ ["plainbox"]) = _
    rw [ih, h.handlers]
    have : (dictConfig consoleCfg (State.fresh e)).handlers (p :: pre ++ ["plainbox"]) = [] := by
      show (if p :: pre ++ ["plainbox"] = [] then [] else
        match Cfg.find (p :: pre ++ ["plainbox"]) consoleLoggers with | some c => c.handlers | none => _) = _
      rw [if_neg (by simp), find_console (p :: pre) (by simp) (fun hc => hn (suffix_single.2 (.inl hc)))]
      dsimp only
      by_cases h3 : ((State.fresh e).exist.contains (p :: pre ++ ["plainbox"]) &&
          consoleCfg.isChild (p :: pre ++ ["plainbox"])) = true
      · rw [if_pos h3]
      · rw [if_neg h3]; rfl
    rw [this, List.nil_append]

theorem count_four (b : Bool) (l : Nat) (d : Dest) (f : HName → Option Dest) (hf : ∀ h ∈ four, f h = pick b l h) :
    (four.filterMap f).count d = if d = .stdout ∨ d = .stderr then wanted (b = true) False False l d else 0 := by
  have e : four.filterMap f = [pick b l .consoleDebug].filterMap id ++ ([pick b l .consoleInfo].filterMap id ++
      ([pick b l .consoleWarning].filterMap id ++ [pick b l .consoleError].filterMap id)) := by
    unfold four
    simp only [List.filterMap_cons, List.filterMap_nil, id]
    rw [hf .consoleDebug (by decide), hf .consoleInfo (by decide), hf .consoleWarning (by decide), hf .consoleError (by decide)]
    cases pick b l .consoleDebug <;> cases pick b l .consoleInfo <;> cases pick b l .consoleWarning <;>
      cases pick b l .consoleError <;> rfl
  rw [e]
  simp only [List.count_append, pick, count_ite]
  cases d <;> cases b <;> simp [wanted] <;> (repeat' split) <;> first | rfl | omega | (exfalso; omega)

/-- **C144**, without the log files: if the directory for them cannot be made there are two warnings, unless they were silenced,
and messages of the loggers of plainbox get to the console exactly as they do with the files. It is claimed only for the
loggers that are not the one for crashes or below it: see `C144_twice_violated`. -/
theorem C144_console_partial (given : Option Cfg) (e : List Name) (as : List Adj) (s : State)
    (hs : run (setup given false (State.fresh e)).1 as = some s) (pre : List String) (hn : ¬ ["crashes"] <:+ pre) (l : Nat)
    (d : Dest) [Decidable (Shown as)] :
    (setup given false (State.fresh e)).2 = (if given.any (·.silent) then 0 else 2) ∧
    (s.log (pre ++ ["plainbox"]) l).count d =
      if s.effective (pre ++ ["plainbox"]) ≤ l ∧ (d = .stdout ∨ d = .stderr) then wanted (Shown as) False False l d else 0 := by
  constructor
  · cases given with
    | none => rfl
    | some c => rfl
  have hi := run_inv (cfg := consoleCfg) (e := e) rfl as (inv_start _ _) hs
  rw [Bool.false_or] at hi
  have hg := gather_console e hi pre hn
  rw [log_eq (enabled_of hi rfl pre) (by rw [hg]; simp [four]), hg]
  by_cases hl : s.effective (pre ++ ["plainbox"]) ≤ l
  · rw [if_pos hl, hi.known, count_four (as.any Adj.shows) l d]
    · have hsh := shows_iff as
      cases d <;> simp [wanted, hsh, hl]
    · intro h hh
      have : lookup h (knownOf (as.any Adj.shows) consoleCfg.handlers) = some (conf (as.any Adj.shows) h) := by
        generalize as.any Adj.shows = b
        simp only [four, List.mem_cons, List.not_mem_nil, or_false] at hh
        rcases hh with rfl | rfl | rfl | rfl <;> cases b <;> rfl
      rw [this]
      exact conf_pick _ l h
  · rw [if_neg hl, if_neg (fun h => hl h.1)]; rfl

example : ¬ ["crashes"] <:+ ["x"] := by decide

/-- A crash is shown twice if there are no log files. -/
theorem C144_twice_violated :
    ((setup none false (State.fresh [])).1.log ["crashes", "plainbox"] 50).count .stderr = 2 := by decide +kernel

/-- **C144**: without the log files no message of any logger gets to a file. -/
theorem C144_no_files (given : Option Cfg) (e : List Name) (as : List Adj) (s : State)
    (hs : run (setup given false (State.fresh e)).1 as = some s) (n : Name) (l : Nat) :
    ∀ d ∈ s.log n l, d = .stdout ∨ d = .stderr := by
  have hi := run_inv (cfg := consoleCfg) (e := e) rfl as (inv_start _ _) hs
  have hk : ∀ h x, lookup h s.known = some x → x.dest = .stdout ∨ x.dest = .stderr := by
    rw [hi.known]
    generalize (false || as.any Adj.shows) = b
    intro h x hx
    cases h <;> cases b <;>
      first
        | (have hx' := Option.some.inj hx; subst hx'; first | exact .inl rfl | exact .inr rfl)
        | cases hx
  intro d hd
  unfold State.log at hd
  by_cases h : (s.disabled n || decide (l < s.effective n)) = true
  · rw [if_pos h] at hd; simp at hd
  · rw [if_neg h] at hd
    cases hg : s.gather n with
    | nil =>
      rw [hg] at hd
      dsimp only at hd
      split at hd
      · right; simpa using hd
      · simp at hd
    | cons a hs' =>
      rw [hg] at hd
      obtain ⟨h, _, he⟩ := List.mem_filterMap.1 hd
      cases hx : lookup h s.known with
      | none => rw [hx] at he; cases he
      | some x =>
        rw [hx] at he
        dsimp only at he
        split at he
        · cases he; exact hk h x hx
        · cases he

/-! ## Levels -/

theorem trace_level : ∀ (ns : List Name) (s : State) (m : Name), (s.trace ns).level m = if m ∈ ns then 10 else s.level m
  | [], s, m => by simp [State.trace]
  | n :: ns, s, m => by
    rw [State.trace, trace_level ns]
    by_cases h : m ∈ ns
    · rw [if_pos h, if_pos (List.mem_cons_of_mem _ h)]
    · rw [if_neg h]
      by_cases hn : m = n
      · rw [if_pos (by simp [hn])]; exact if_pos hn
      · rw [if_neg (by simp [hn, h])]; exact if_neg hn

/-- A level that is set, or the one before. -/
def set (l : Option String) (before : Nat) : Nat :=
  match l with
  | none => before
  | some t => (checkLevel t).getD 0

theorem bump_level {s s' : State} {l : Option String} (h : s.bump l = some s') (m : Name)
    (h0 : m ≠ []) (h1 : m ≠ ["checkbox"]) :
    s'.level m = if m = ["plainbox"] then set l (s.level m) else s.level m := by
  cases l with
  | none => cases h; by_cases hm : m = ["plainbox"] <;> simp [hm, set]
  | some t =>
    unfold State.bump at h
    dsimp only at h
    cases hc : checkLevel t with
    | none => rw [hc] at h; cases h
    | some l =>
      rw [hc] at h
      cases h
      show (if m = ["checkbox"] then l else if m = ["plainbox"] then l else if m = [] then l else s.level m) = _
      rw [if_neg h1, if_neg h0]
      unfold set
      dsimp only
      rw [hc]
      rfl

theorem adjust_level {s s' : State} {l : Option String} {ts : List Name} {c : Bool} (h : adjust l ts c s = some s') :
    ∃ s1, s.bump l = some s1 ∧ ∀ m, s'.level m = if m ∈ ts then 10 else s1.level m := by
  unfold adjust at h
  cases hb : s.bump l with
  | none => rw [hb] at h; cases h
  | some s1 =>
    rw [hb] at h
    dsimp only at h
    refine ⟨s1, rfl, fun m => ?_⟩
    split at h
    · unfold State.debugConsole at h
      split at h
      · cases h; exact trace_level ts s1 m
      · cases h
    · cases h; exact trace_level ts s1 m

theorem level_file (e : List Name) (writable : Bool) (q : List String) (hq : q ≠ []) (hc : q ≠ ["crashes"]) :
    (setup none writable (State.fresh e)).1.level (q ++ ["plainbox"]) = 0 := by
  have fr : (State.fresh e).level (q ++ ["plainbox"]) = 0 := by
    show (if q ++ ["plainbox"] = [] then 30 else 0) = 0
    rw [if_neg (by simp)]
  cases writable with
  | true =>
    show (if q ++ ["plainbox"] = [] then _ else
      match Cfg.find (q ++ ["plainbox"]) fileLoggers with | some c => c.level.getD _ | none => _) = _
    rw [if_neg (by simp), find_file q _ hq, if_neg (fun h => hc h.2)]
    by_cases h2 : "plainbox" = "plainbox" ∧ q = ["bug"]
    · rw [if_pos h2]; exact fr
    · rw [if_neg h2]
      dsimp only
      split
      · rfl
      · exact fr
  | false =>
    show (if q ++ ["plainbox"] = [] then _ else
      match Cfg.find (q ++ ["plainbox"]) consoleLoggers with | some c => c.level.getD _ | none => _) = _
    rw [if_neg (by simp), find_console q hq hc]
    dsimp only
    split
    · rfl
    · exact fr

theorem effective_cons (s : State) (p : String) (n : Name) :
    s.effective (p :: n) = if s.level (p :: n) ≠ 0 then s.level (p :: n) else s.effective n := rfl

theorem not_checkbox (q : List String) : q ++ ["plainbox"] ≠ ["checkbox"] := by
  intro h
  have := congrArg List.getLast? h
  simp at this

theorem eff_ext (s : State) (T : List Name) (base : Name) (k : Nat)
    (hb : s.effective base = if base ∈ T then 10 else k) : ∀ pre : List String,
    (∀ q, q ≠ [] → q <:+ pre → s.level (q ++ base) = if q ++ base ∈ T then 10 else 0) →
    s.effective (pre ++ base) = if ∃ t ∈ T, base <:+ t ∧ t <:+ pre ++ base then 10 else k
  | [], _ => by
    rw [List.nil_append, hb]
    by_cases h : base ∈ T
    · rw [if_pos h, if_pos ⟨base, h, List.suffix_rfl, List.suffix_rfl⟩]
    · rw [if_neg h, if_neg]
      rintro ⟨t, ht, h1, h2⟩
      have : t = base := List.IsSuffix.eq_of_length_le h2 h1.length_le
      exact h (this ▸ ht)
  | p :: pre, hq => by
    have ih := eff_ext s T base k hb pre (fun q h0 h1 => hq q h0 (h1.trans (List.suffix_cons p pre)))
    rw [List.cons_append, effective_cons]
    have hl := hq (p :: pre) (by simp) List.suffix_rfl
    rw [List.cons_append] at hl
    rw [hl, ih]
    by_cases h : p :: (pre ++ base) ∈ T
    · rw [if_pos h, if_pos (by simp), if_pos ⟨_, h, (List.suffix_append (p :: pre) base), List.suffix_rfl⟩]
    · rw [if_neg h, if_neg (by simp)]
      have : (∃ t ∈ T, base <:+ t ∧ t <:+ pre ++ base) ↔ ∃ t ∈ T, base <:+ t ∧ t <:+ p :: (pre ++ base) := by
        constructor
        · rintro ⟨t, ht, h1, h2⟩
          exact ⟨t, ht, h1, h2.trans (List.suffix_cons _ _)⟩
        · rintro ⟨t, ht, h1, h2⟩
          rcases List.suffix_cons_iff.1 h2 with h2 | h2
          · exact absurd (h2 ▸ ht) h
          · exact ⟨t, ht, h1, h2⟩
      by_cases hx : ∃ t ∈ T, base <:+ t ∧ t <:+ pre ++ base
      · rw [if_pos hx, if_pos (this.1 hx)]
      · rw [if_neg hx, if_neg (fun hy => hx (this.2 hy))]

/-- **C144**: what the level of a logger of plainbox is after one adjustment with a level of the command line or none:
debugging if it, or a logger of plainbox above it, was traced; else the level that was asked for, and warnings if none was. The
logger for crashes and those below it keep to errors, unless they are traced. -/
theorem C144_level (e : List Name) (writable : Bool) (a : Adj) (s : State)
    (hs : adjust a.level a.traces a.console (setup none writable (State.fresh e)).1 = some s) (pre : List String) (k : Nat)
    (hk : (a.level = none ∧ k = 30) ∨
      ∃ t, a.level = some t ∧ (t, k) ∈ [("DEBUG", 10), ("INFO", 20), ("WARNING", 30), ("ERROR", 40), ("CRITICAL", 50)]) :
    (¬ ["crashes"] <:+ pre →
      s.effective (pre ++ ["plainbox"]) =
        if ∃ t ∈ a.traces, ["plainbox"] <:+ t ∧ t <:+ pre ++ ["plainbox"] then 10 else k) ∧
    s.effective (pre ++ ["crashes", "plainbox"]) =
        if ∃ t ∈ a.traces, ["crashes", "plainbox"] <:+ t ∧ t <:+ pre ++ ["crashes", "plainbox"] then 10 else 40 := by
  obtain ⟨s1, hb, hl⟩ := adjust_level hs
  have hq : ∀ q : List String, q ≠ [] → q ≠ ["crashes"] → s.level (q ++ ["plainbox"]) =
      if q ++ ["plainbox"] ∈ a.traces then 10 else 0 := by
    intro q h0 h1
    rw [hl, bump_level hb _ (by simp) (not_checkbox q), level_file e writable q h0 h1, if_neg (α := Nat) (c := _ = ["plainbox"])]
    intro h
    cases q with
    | nil => exact h0 rfl
    | cons a q => simp at h
  have hcr : s.level ["crashes", "plainbox"] = if ["crashes", "plainbox"] ∈ a.traces then 10 else 40 := by
    rw [hl, bump_level hb _ (by decide) (by decide), if_neg (α := Nat) (c := _ = ["plainbox"]) (by decide)]
    cases writable <;> rfl
  have hset : set a.level 30 = k ∧ k ≠ 0 := by
    rcases hk with ⟨h, rfl⟩ | ⟨t, h, hm⟩
    · rw [h]; exact ⟨rfl, by decide⟩
    · rw [h]
      simp only [List.mem_cons, List.not_mem_nil, or_false, Prod.mk.injEq] at hm
      rcases hm with ⟨rfl, rfl⟩ | ⟨rfl, rfl⟩ | ⟨rfl, rfl⟩ | ⟨rfl, rfl⟩ | ⟨rfl, rfl⟩ <;> decide
  have hpl : s.effective ["plainbox"] = if ["plainbox"] ∈ a.traces then 10 else k := by
    have h30 : (setup none writable (State.fresh e)).1.level ["plainbox"] = 30 := by cases writable <;> rfl
    rw [effective_cons, hl, bump_level hb _ (by decide) (by decide), if_pos (c := ["plainbox"] = ["plainbox"]) rfl, h30, hset.1]
    by_cases ht : ["plainbox"] ∈ a.traces
    · rw [if_pos ht, if_pos (by decide)]
    · rw [if_neg ht, if_pos hset.2]
  constructor
  · intro hn
    refine eff_ext s a.traces ["plainbox"] k hpl pre fun q h0 h1 => hq q h0 ?_
    rintro rfl
    exact hn h1
  · refine eff_ext s a.traces ["crashes", "plainbox"] 40 ?_ pre fun q h0 h1 => ?_
    · rw [effective_cons, hcr]
      by_cases ht : ["crashes", "plainbox"] ∈ a.traces
      · rw [if_pos ht, if_pos (by decide)]
      · rw [if_neg ht, if_pos (by decide)]
    · have := hq (q ++ ["crashes"]) (by simp) (fun h => h0 (by simpa using h))
      rw [List.append_assoc] at this
      exact this

example : (adjust (some "INFO") [["x", "plainbox"]] false (setup none true (State.fresh [])).1).map (fun s =>
    (s.effective ["y", "x", "plainbox"], s.effective ["z", "plainbox"], s.effective ["crashes", "plainbox"])) =
    some (10, 20, 40) := by decide +kernel

/-- **C144**: after logging was set up, adjusting it fails exactly if the level is none that there is. -/
theorem C144_refused (writable : Bool) (e : List Name) (as : List Adj) (s : State)
    (hs : run (setup none writable (State.fresh e)).1 as = some s) (a : Adj) :
    adjust a.level a.traces a.console s = none ↔
      ∃ t, a.level = some t ∧ t ∉ ["CRITICAL", "FATAL", "ERROR", "WARNING", "WARN", "INFO", "DEBUG", "NOTSET"] := by
  have key : ∀ cfg : Cfg, cfg.handlers.any (fun p => p.1 = .consoleDebug) = true →
      ∀ b, Inv cfg e b s → (adjust a.level a.traces a.console s = none ↔ s.bump a.level = none) := by
    intro cfg hc b hi
    unfold adjust
    cases hb : s.bump a.level with
    | none => simp
    | some s1 =>
      dsimp only
      obtain ⟨s2, e2, _⟩ := inv_debug (inv_trace a.traces (inv_bump hi hb)) hc
      split
      · rw [e2]; simp
      · simp
  have h1 : adjust a.level a.traces a.console s = none ↔ s.bump a.level = none := by
    cases writable with
    | true => exact key defaultCfg rfl _ (run_inv (cfg := defaultCfg) (e := e) rfl as (inv_start _ _) hs)
    | false => exact key consoleCfg rfl _ (run_inv (cfg := consoleCfg) (e := e) rfl as (inv_start _ _) hs)
  rw [h1]
  have hcl : ∀ t, checkLevel t = none ↔ t ∉ ["CRITICAL", "FATAL", "ERROR", "WARNING", "WARN", "INFO", "DEBUG", "NOTSET"] := by
    intro t
    unfold checkLevel
    simp only [List.mem_cons, List.not_mem_nil, or_false, not_or]
    constructor
    · intro h
      (repeat' split at h) <;> simp_all
    · rintro ⟨h1, h2, h3, h4, h5, h6, h7, h8⟩
      simp [h1, h2, h3, h4, h5, h6, h7, h8]
  cases hv : a.level with
  | none => simp [State.bump]
  | some t =>
    unfold State.bump
    dsimp only
    constructor
    · intro h
      refine ⟨t, rfl, (hcl t).1 ?_⟩
      cases hc : checkLevel t with
      | none => rfl
      | some l => rw [hc] at h; cases h
    · rintro ⟨t', e', h⟩
      cases e'
      rw [(hcl t).2 h]

example : adjust (some "VERBOSE") [] false (setup none true (State.fresh [])).1 |>.isNone := by decide +kernel

/-- Tracing a logger that is neither of plainbox nor of checkbox shows nothing. -/
theorem C144_trace_violated : ∃ a : Adj, a.traces = [["requests"]] ∧ a.console = true ∧
    (adjust a.level a.traces a.console (setup none true (State.fresh [])).1).map
      (fun s => (s.effective ["requests"], s.log ["requests"] 10)) = some (10, []) :=
  ⟨⟨none, [["requests"]], true⟩, rfl, rfl, by decide +kernel⟩

/-- With a level and no loggers to trace in the environment, the root logger is traced all the same. -/
theorem C144_environment_violated :
    (fromEnvironment "1".toList (some "ERROR") [] (setup none true (State.fresh [])).1).map (fun s => s.effective []) =
      some 10 := by decide +kernel

/-- **C144**: what the environment asks for: nothing without `PLAINBOX_DEBUG`; else the level, by default debugging, and the
loggers by their names. -/
theorem C144_environment (debug trace : List Char) (level : Option String) (s : State) :
    (debug = [] → fromEnvironment debug level trace s = some s) ∧
    (debug ≠ [] → ∀ names : List (List Char), names ≠ [] → (∀ n ∈ names, ',' ∉ n) →
      trace = Text.joinWith ',' names →
      fromEnvironment debug level trace s =
        run s [⟨some (level.getD "DEBUG"), names.map nameOf, debug = "console".toList⟩]) := by
  constructor
  · intro h; unfold fromEnvironment; rw [if_pos h]
  · rintro h names h0 hn rfl
    unfold fromEnvironment
    rw [if_neg h, Text.split_join h0 hn]
    unfold run
    cases adjust _ _ _ s <;> rfl

example : nameOf "plainbox.x".toList = ["x", "plainbox"] ∧ nameOf [] = [] := by decide +kernel

end Verif.Logs
