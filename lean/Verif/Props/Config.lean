import Verif.Model.Config
import Verif.Props.Restart

/-!
# C39 and C58: configuration

* `C39_valid`, `C39_kind`: values are valid after any history.
* `C39_read`: what reading does to each variable, and which problems it records.
* `C39_raises_exact`, `C39_raise_partial`: when reading raises.
* `C39_collision_violated`, `C39_raise_violated`, `C39_syntax_violated`: where it fails.
* `C58_partial` and its counterexamples: writing and reading back.
-/

namespace Verif.Config

open Verif.Restart

/-! ## Specification -/

/-- A value satisfies all validators of a variable (validators that do not know `Unset` are not asked
about it). -/
def Valid (x : Var) (v : Val) : Prop := ∀ f ∈ x.validators, (v = .unset ∧ f.unset = false) ∨ f.check v = .ok

theorem validate_ok (fs : List Validator) (v : Val) :
    validate fs v = .ok ↔ ∀ f ∈ fs, (v = .unset ∧ f.unset = false) ∨ f.check v = .ok := by
  induction fs with
  | nil => simp [validate]
  | cons f fs ih =>
    simp only [validate, List.forall_mem_cons]
    by_cases h : v = .unset ∧ f.unset = false
    · rw [if_pos h, ih]; simp [h]
    · simp only [h, if_false, false_or]
      cases hc : f.check v <;> simp [ih]

theorem find_store (k j : Str) (v : Val) (d : List (Str × Val)) :
    find j (store k v d) = if j = k then some v else find j d := by
  induction d with
  | nil => simp only [store, find]; by_cases h : k = j <;> simp [h, eq_comm]
  | cons e d ih =>
    obtain ⟨i, w⟩ := e
    simp only [store]
    split
    · rename_i h
      subst h
      simp only [find]
      by_cases hj : i = j
      · simp [hj]
      · simp [hj, Ne.symm hj]
    · rename_i h
      simp only [find, ih]
      by_cases hj : i = j
      · subst hj; simp [h]
      · simp [hj]

theorem find_remove (k j : Str) (d : List (Str × Val)) :
    find j (remove k d) = if j = k then Option.none else find j d := by
  induction d with
  | nil => simp [remove, find]
  | cons e d ih =>
    obtain ⟨i, w⟩ := e
    simp only [remove] at ih ⊢
    rw [List.filter_cons]
    by_cases h : i = k
    · subst h
      simp only [ne_eq, not_true_eq_false, decide_false, Bool.false_eq_true, if_false, ih, find]
      by_cases hj : j = i
      · simp [hj]
      · simp [hj, Ne.symm hj]
    · simp only [ne_eq, h, not_false_eq_true, decide_true, if_true, find, ih]
      by_cases hj : i = j
      · subst hj; simp [h]
      · simp [hj]

/-- No two variables share their place in the object. -/
def Distinct (xs : List Var) : Prop := ∀ x ∈ xs, ∀ y ∈ xs, x.key = y.key → x = y

/-- Everything stored is valid. -/
def Good (xs : List Var) (st : St) : Prop := ∀ x ∈ xs, ∀ v, find x.key st.vars = some v → Valid x v

theorem good_set {xs : List Var} (hd : Distinct xs) {st : St} (hg : Good xs st) {x : Var} (hx : x ∈ xs)
    (v : Val) : Good xs (x.set v st).1 := by
  unfold Var.set
  split
  · rename_i h
    intro y hy u hu
    simp only [find_store] at hu
    split at hu
    · rename_i hk
      have := hd y hy x hx hk
      subst this
      cases hu
      exact (validate_ok _ _).1 h
    · exact hg y hy u hu
  · exact hg

theorem good_problems {xs : List Var} {st : St} (hg : Good xs st) (l : List Problem) :
    Good xs { st with problems := l } := hg

theorem good_readVars (w : World) (p : Parser) {xs : List Var} (hd : Distinct xs) (ys : List Var)
    (hys : ∀ y ∈ ys, y ∈ xs) {st : St} (hg : Good xs st) : Good xs (readVars w p ys st).1 := by
  induction ys generalizing st with
  | nil => exact hg
  | cons y ys ih =>
    have ih := fun {st} (h : Good xs st) => ih (fun z hz => hys z (by simp [hz])) h
    simp only [readVars]
    split
    · exact hg
    · split
      · exact ih (good_set hd hg (hys y (by simp)) _)
      · exact ih (good_problems hg _)
      · exact hg

theorem good_commit (w : World) (p : Parser) {xs : List Var} (hd : Distinct xs) (f : Bool)
    (whole : St → Verdict) {st : St} (hg : Good xs st) : Good xs (readCommit w xs p f whole st).1 := by
  have h := good_readVars w p hd xs (fun _ h => h) hg
  simp only [readCommit]
  split
  · exact h
  · split
    · exact h
    · split
      · exact h
      · exact good_problems h _
      · exact h

/-- An operation on this class of configuration. -/
def Op.on (xs : List Var) : Op → Prop
  | .assign x _ => x ∈ xs
  | .delete x => x ∈ xs
  | _ => True

/-! ## C39 -/

/-- **C39**: after any history of assignments, deletions and reads, of any texts and with exceptions
caught, the value of each variable is its default or satisfies all its validators. -/
theorem C39_valid (w : World) (xs : List Var) (hd : Distinct xs) (whole : St → Verdict) (os : List Op)
    (ho : ∀ o ∈ os, o.on xs) (x : Var) (hx : x ∈ xs) :
    x.get (run w xs whole os init) = x.default ∨ Valid x (x.get (run w xs whole os init)) := by
  have key : ∀ (os : List Op) (st : St), (∀ o ∈ os, o.on xs) → Good xs st →
      Good xs (run w xs whole os st) := by
    intro os
    induction os with
    | nil => exact fun st _ h => h
    | cons o os ih =>
      intro st ho hg
      refine ih _ (fun o h => ho o (by simp [h])) ?_
      have hon := ho o (by simp)
      cases o with
      | assign y v => exact good_set hd hg hon v
      | delete y =>
        simp only [step, Var.del]
        split
        · exact hg
        · intro z hz u hu
          simp only [find_remove] at hu
          split at hu
          · cases hu
          · exact hg z hz u hu
      | readString syn p f => exact good_commit w p hd f whole (good_problems hg _)
      | read syn p f =>
        simp only [step]
        split
        · exact good_problems hg _
        · exact good_commit w p hd f whole (good_problems hg _)
  have hg := key os init ho (by intro y _ v h; cases h)
  unfold Var.get
  cases hf : find x.key (run w xs whole os init).vars with
  | none => exact .inl rfl
  | some v => exact .inr (hg x hx v hf)

/-- **C39**, assignments: a value is refused, and then nothing changes, exactly if it is not valid; otherwise the variable has this
value, the other ones keep theirs, and the variable can be deleted without an error. -/
theorem C39_assign (x : Var) (v : Val) (st : St) :
    ((x.set v st).2 = .ok ↔ Valid x v) ∧ (¬ Valid x v → (x.set v st).1 = st) ∧
    (Valid x v → x.get (x.set v st).1 = v ∧ (x.del (x.set v st).1).2 = false) ∧
    (∀ y : Var, y.key ≠ x.key → y.get (x.set v st).1 = y.get st) := by
  have hv : validate x.validators v = .ok ↔ Valid x v := validate_ok _ _
  unfold Var.set
  by_cases h : Valid x v
  · rw [hv.mpr h]
    refine ⟨by simp [h], fun h' => absurd h h', fun _ => ?_, fun y hy => ?_⟩
    · have hf : find x.key (store x.key v st.vars) = some v := by rw [find_store, if_pos rfl]
      exact ⟨by simp [Var.get, hf], by simp [Var.del, hf]⟩
    · simp [Var.get, find_store, hy]
  · have hne : validate x.validators v ≠ .ok := fun h' => h (hv.mp h')
    cases hr : validate x.validators v <;> simp_all

/-- **C39**, deletions: afterwards the variable has its default and the other ones keep their values; deleting it again raises
`KeyError`, as deleting it in a new object does, and then nothing changes. -/
theorem C39_delete (x : Var) (st : St) :
    x.get (x.del st).1 = x.default ∧ (∀ y : Var, y.key ≠ x.key → y.get (x.del st).1 = y.get st) ∧
    x.del (x.del st).1 = ((x.del st).1, true) ∧ x.del init = (init, true) := by
  have hf : find x.key (x.del st).1.vars = none := by
    unfold Var.del
    cases h : find x.key st.vars with
    | none => exact h
    | some v => simp only [find_remove, if_pos]
  refine ⟨by simp [Var.get, hf], fun y hy => ?_, ?_, rfl⟩
  · unfold Var.del
    cases h : find x.key st.vars with
    | none => rfl
    | some v => simp only [Var.get, find_remove, if_neg hy]
  · generalize (x.del st).1 = st' at hf
    simp [Var.del, hf]

/-- The values of each kind; truth values count as integers, as in Python. -/
inductive OfKind : Kind → Val → Prop
  | bool (b) : OfKind .bool (.bool b)
  | int (i) : OfKind .int (.int i)
  | truth (b) : OfKind .int (.bool b)
  | float (f) : OfKind .float (.float f)
  | str (s) : OfKind .str (.str s)
  | list (l) : OfKind .list (.list l)

theorem isKind_iff (k : Kind) (v : Val) : isKind k v = true ↔ OfKind k v := by
  constructor
  · intro h
    cases k <;> cases v <;> first | constructor; done | (simp only [isKind, Bool.false_eq_true] at h)
  · intro h; cases h <;> rfl

/-- **C39**, the type: whatever the validators of the class, a value that satisfies them is unset or of
the kind of the variable; without validators these are all the valid values. -/
theorem C39_kind (sec name : Str) (k : Kind) (d : Val) (vs : List Validator) (v : Val) :
    (Valid (mkVar sec name k d vs) v → v = .unset ∨ OfKind k v) ∧
    (Valid (mkVar sec name k d []) v ↔ v = .unset ∨ OfKind k v) := by
  have hk : (kindValidator k).check v = .ok ↔ OfKind k v := by
    rw [← isKind_iff]
    simp only [kindValidator]
    cases isKind k v <;> simp
  have hu : (kindValidator k).unset = false := rfl
  constructor
  · intro h
    have hm : kindValidator k ∈ (mkVar sec name k d vs).validators := by
      simp only [mkVar]
      cases vs with
      | nil => simp
      | cons f vs => simp only; split <;> simp
    rcases h _ hm with h | h
    · exact .inl h.1
    · exact .inr (hk.1 h)
  · simp only [Valid, mkVar, List.mem_singleton, forall_eq, hu, and_true, hk]

/-- A truth value in an integer variable, and a number that is refused by a text variable. -/
example : Valid (mkVar [] [] .int .unset []) (.bool true) ∧ ¬ Valid (mkVar [] [] .str .unset []) (.int 3) := by
  refine ⟨(C39_kind [] [] .int .unset [] _).2.2 (.inr (.truth true)), fun h => ?_⟩
  rcases (C39_kind [] [] .str .unset [] _).2.1 h with h | h <;> cases h

/-- **C39**, truth values: which texts are read as which value, in any mixture of cases; all others
raise. -/
theorem C39_truth (w : World) (s : Str) :
    (readKind w .bool (some s) = some (.bool true) ↔
      s.map Char.toLower ∈ [['1'], ['y', 'e', 's'], ['t', 'r', 'u', 'e'], ['o', 'n']]) ∧
    (readKind w .bool (some s) = some (.bool false) ↔
      s.map Char.toLower ∈ [['0'], ['n', 'o'], ['f', 'a', 'l', 's', 'e'], ['o', 'f', 'f']]) ∧
    (readKind w .bool (some s) = Option.none ↔
      s.map Char.toLower ∉ [['1'], ['y', 'e', 's'], ['t', 'r', 'u', 'e'], ['o', 'n'],
        ['0'], ['n', 'o'], ['f', 'a', 'l', 's', 'e'], ['o', 'f', 'f']]) := by
  have e : readKind w .bool (some s) = (readBool (s.map Char.toLower)).map .bool := rfl
  rw [e]
  generalize s.map Char.toLower = t
  have l1 : "1".toList = ['1'] := rfl
  have l2 : "yes".toList = ['y', 'e', 's'] := rfl
  have l3 : "true".toList = ['t', 'r', 'u', 'e'] := rfl
  have l4 : "on".toList = ['o', 'n'] := rfl
  have l5 : "0".toList = ['0'] := rfl
  have l6 : "no".toList = ['n', 'o'] := rfl
  have l7 : "false".toList = ['f', 'a', 'l', 's', 'e'] := rfl
  have l8 : "off".toList = ['o', 'f', 'f'] := rfl
  unfold readBool
  rw [l1, l2, l3, l4, l5, l6, l7, l8]
  simp only [List.mem_cons, List.not_mem_nil, or_false]
  split
  · rename_i h
    refine ⟨by simp [h], ?_, ?_⟩
    · rcases h with rfl | rfl | rfl | rfl <;> simp
    · rcases h with rfl | rfl | rfl | rfl <;> simp
  · rename_i h
    split
    · rename_i h'
      refine ⟨by simp [h], by simp [h'], ?_⟩
      rcases h' with rfl | rfl | rfl | rfl <;> simp
    · rename_i h'
      refine ⟨by simp [h], by simp [h'], ?_⟩
      simp only [not_or] at h h'
      simp [h, h']

example (w : World) : readKind w .bool (some "ON".toList) = some (.bool true) :=
  (C39_truth w _).1.2 (by decide +kernel)

/-- Reading raises because of a variable: an error of interpolation, a text that is no number, no
boolean or no list, no value at all, or a validator that raises. -/
def Bad (w : World) (p : Parser) (x : Var) : Prop :=
  readVar w p x = Option.none ∨ ∃ v, readVar w p x = some v ∧ validate x.validators v = .raise

theorem readVars_raises (w : World) (p : Parser) (xs : List Var) (st : St) :
    (readVars w p xs st).2 = true ↔ ∃ x ∈ xs, Bad w p x := by
  induction xs generalizing st with
  | nil => simp [readVars]
  | cons x xs ih =>
    have he : (∃ y ∈ x :: xs, Bad w p y) ↔ Bad w p x ∨ ∃ y ∈ xs, Bad w p y := by simp
    rw [he]
    simp only [readVars]
    split
    · rename_i h; simp [Bad, h]
    · rename_i v h
      have hset : (x.set v st).2 = validate x.validators v := by
        unfold Var.set; split <;> simp_all
      rw [hset]
      have hb : Bad w p x ↔ validate x.validators v = .raise := by
        simp [Bad, h]
      split
      · rename_i hv; rw [ih, hb, hv]; simp
      · rename_i hv; rw [ih, hb, hv]; simp
      · rename_i hv; rw [hb, hv]; simp

/-- **C39**, exceptions, exactly: `read_string` raises if and only if a variable is bad, or a section has
an error of interpolation, or `validate_whole` raises something else than `ValidationError`; `read`
raises also for every syntax error. -/
theorem C39_raises_exact (w : World) (xs : List Var) (whole : St → Verdict) (syn : Bool) (p : Parser)
    (f : Bool) (st : St) :
    ((step w xs whole (.readString syn p f) st).2 = true ↔ (∃ x ∈ xs, Bad w p x) ∨ f = true ∨
      whole (readVars w p xs { st with problems := if syn then [.syntax] else [] }).1 = .raise) ∧
    ((step w xs whole (.read syn p f) st).2 = true ↔ syn = true ∨ (∃ x ∈ xs, Bad w p x) ∨ f = true ∨
      whole (readVars w p xs { st with problems := [] }).1 = .raise) := by
  have key : ∀ st, (readCommit w xs p f whole st).2 = true ↔ (∃ x ∈ xs, Bad w p x) ∨ f = true ∨
      whole (readVars w p xs st).1 = .raise := by
    intro st
    have hr := readVars_raises w p xs st
    simp only [readCommit]
    split
    · rename_i h; simp [h, hr.1 h]
    · rename_i h
      have hn : ¬∃ x ∈ xs, Bad w p x := fun e => h (hr.2 e)
      split
      · rename_i hf; simp [hf]
      · rename_i hf
        simp only [hn, hf, false_or]
        cases whole (readVars w p xs st).1 <;> simp
  refine ⟨key _, ?_⟩
  simp only [step]
  split
  · rename_i h; simp [h]
  · rename_i h; rw [key]; simp [h]

/-- **C39**, partial: a class of text variables whose validators do not raise, read from a text without
percent signs (so that interpolation cannot fail), never raises from `read_string`.  Full statement: for
all classes and texts, and for `read` (`C39_raise_violated`, `C39_syntax_violated`). -/
theorem C39_raise_partial (w : World) (xs : List Var) (whole : St → Verdict) (syn : Bool) (p : Parser)
    (st : St) (hk : ∀ x ∈ xs, x.kind = .str) (hv : ∀ x ∈ xs, ∀ f ∈ x.validators, ∀ v, f.check v ≠ .raise)
    (hp : ∀ s o, p s o ≠ .error) (hw : ∀ st, whole st ≠ .raise) :
    (step w xs whole (.readString syn p false) st).2 = false := by
  cases h : (step w xs whole (.readString syn p false) st).2
  · rfl
  · exfalso
    rcases (C39_raises_exact w xs whole syn p false st).1.1 h with ⟨x, hx, hb⟩ | hb | hb
    · have hread : readVar w p x ≠ Option.none := by
        simp only [readVar, hk x hx]
        split
        · simp
        · rename_i he; exact absurd he (hp _ _)
        · rename_i s _; cases s <;> simp [readKind]
      rcases hb with hb | ⟨v, _, hb⟩
      · exact hread hb
      · have : ∀ (fs : List Validator), (∀ f ∈ fs, ∀ v, f.check v ≠ .raise) → validate fs v ≠ .raise := by
          intro fs
          induction fs with
          | nil => intro _; simp [validate]
          | cons f fs ih =>
            intro hf
            simp only [validate]
            split
            · exact ih fun g hg => hf g (by simp [hg])
            · split
              · exact ih fun g hg => hf g (by simp [hg])
              · exact hf f (by simp) v
        exact this _ (hv x hx) hb
    · cases hb
    · exact hw _ hb

theorem readVars_other (w : World) (p : Parser) (xs : List Var) (st : St) (k : Str)
    (hk : ∀ x ∈ xs, x.key ≠ k) : find k (readVars w p xs st).1.vars = find k st.vars := by
  induction xs generalizing st with
  | nil => rfl
  | cons x xs ih =>
    have ih := fun st => ih st (fun y hy => hk y (by simp [hy]))
    have hx := hk x (by simp)
    simp only [readVars]
    split
    · rfl
    · split
      · rw [ih]
        unfold Var.set
        split
        · simp only [find_store, Ne.symm hx, if_false]
        · rfl
      · rw [ih]
      · rfl

theorem readVars_problems (w : World) (p : Parser) (xs : List Var) (st : St) :
    ∃ new, (readVars w p xs st).1.problems = st.problems ++ new := by
  induction xs generalizing st with
  | nil => exact ⟨[], by simp [readVars]⟩
  | cons x xs ih =>
    simp only [readVars]
    split
    · exact ⟨[], by simp⟩
    · split
      · obtain ⟨n, h⟩ := ih (x.set _ st).1
        refine ⟨n, ?_⟩
        rw [h]
        unfold Var.set
        split <;> rfl
      · obtain ⟨n, h⟩ := ih { st with problems := st.problems ++ [_] }
        exact ⟨[_] ++ n, by rw [h, List.append_assoc]⟩
      · exact ⟨[], by simp⟩

open Classical in
/-- The problem with a variable: its value in the text is not valid. -/
noncomputable def refused (w : World) (p : Parser) (x : Var) : Option Problem :=
  (readVar w p x).bind fun v => if Valid x v then Option.none else some (.value x.key v)

theorem readVars_problems_exact (w : World) (p : Parser) (xs : List Var) (st : St)
    (hr : (readVars w p xs st).2 = false) :
    (readVars w p xs st).1.problems = st.problems ++ xs.filterMap (refused w p) := by
  induction xs generalizing st with
  | nil => simp [readVars]
  | cons x xs ih =>
    simp only [readVars] at hr ⊢
    split at hr
    · cases hr
    rename_i v hv
    have hval := validate_ok x.validators v
    have hset : (x.set v st).2 = validate x.validators v := by
      unfold Var.set; split <;> simp_all
    have hs : (x.set v st).1.problems = st.problems := by
      unfold Var.set; split <;> rfl
    simp only [hset] at hr ⊢
    split at hr
    · rename_i h
      rw [ih _ hr, hs]
      have : refused w p x = Option.none := by
        simp only [refused, hv, Option.bind_some]
        exact if_pos (hval.1 h)
      rw [List.filterMap_cons, this]
    · rename_i h
      rw [ih _ hr]
      have hn : ¬ Valid x v := fun hV => by rw [hval.2 hV] at h; cases h
      have : refused w p x = some (.value x.key v) := by
        simp only [refused, hv, Option.bind_some]
        exact if_neg hn
      rw [List.filterMap_cons, this, List.append_assoc]
      rfl
    · cases hr

/-- **C39**, problems, exactly: if `read_string` does not raise then the recorded problems are the syntax
error if there was one, then one entry for each variable whose value in the text is not valid, in
order, and one for the whole configuration if that was refused; nothing is left of earlier reads. -/
theorem C39_problems (w : World) (xs : List Var) (whole : St → Verdict) (syn : Bool) (p : Parser) (f : Bool)
    (st : St) (hr : (step w xs whole (.readString syn p f) st).2 = false) :
    (step w xs whole (.readString syn p f) st).1.problems =
      (if syn then [.syntax] else []) ++ xs.filterMap (refused w p) ++
      (if whole (readVars w p xs { st with problems := if syn then [.syntax] else [] }).1 = .refuse
        then [.whole] else []) := by
  simp only [step, readCommit] at hr ⊢
  generalize hb : (if syn then [Problem.syntax] else []) = base at hr ⊢
  by_cases h : (readVars w p xs { st with problems := base }).2 = true
  · rw [if_pos h] at hr; rw [h] at hr; cases hr
  rw [if_neg h] at hr
  have hp := readVars_problems_exact w p xs _ (Bool.eq_false_iff.2 h)
  rw [if_neg h]
  split at hr
  · cases hr
  rename_i hf
  rw [if_neg hf]
  split at hr
  · rename_i hw; simp [hw, hp]
  · rename_i hw; simp [hw, hp]
  · cases hr

/-- Three problems at once. -/
example :
    let x := mkVar DEFAULT "x".toList .str .unset [⟨false, false, fun v => if v = .str ['a'] then .ok else .refuse⟩]
    (step ⟨fun _ => Option.none, fun _ => Option.none⟩ [x] (fun _ => .refuse)
      (.readString true (fun _ _ => .value (some ['b'])) false) init).1.problems =
    [.syntax, .value x.key (.str ['b']), .whole] := by decide +kernel

/-- **C39**, reading: if it does not raise, each variable has the value of the configuration text (its
default if the text does not mention it) when that value is valid; otherwise it keeps the value it
had before and the problem is recorded. -/
theorem C39_read (w : World) (p : Parser) (xs : List Var) (hd : Distinct xs) (hn : xs.Nodup) (st : St)
    (hr : (readVars w p xs st).2 = false) (x : Var) (hx : x ∈ xs) :
    ∃ v, readVar w p x = some v ∧
      ((Valid x v ∧ x.get (readVars w p xs st).1 = v) ∨
       (¬Valid x v ∧ x.get (readVars w p xs st).1 = x.get st ∧
        .value x.key v ∈ (readVars w p xs st).1.problems)) := by
  induction xs generalizing st with
  | nil => cases hx
  | cons y ys ih =>
    have hd' : Distinct ys := fun a ha b hb => hd a (by simp [ha]) b (by simp [hb])
    simp only [List.nodup_cons] at hn
    simp only [readVars] at hr ⊢
    split at hr
    · cases hr
    · rename_i v hv
      have hset : (y.set v st).2 = validate y.validators v := by
        unfold Var.set; split <;> simp_all
      rw [hset] at hr ⊢
      have hother : ∀ z ∈ ys, z.key ≠ y.key := by
        intro z hz he
        have := hd z (by simp [hz]) y (by simp) he
        exact hn.1 (this ▸ hz)
      split at hr
      · rename_i hok
        have hstore : (y.set v st).1 = { st with vars := store y.key v st.vars } := by
          unfold Var.set; simp [hok]
        rcases List.mem_cons.1 hx with rfl | hx'
        · refine ⟨v, hv, .inl ⟨(validate_ok _ _).1 hok, ?_⟩⟩
          unfold Var.get
          rw [readVars_other w p ys _ x.key hother, hstore]
          simp [find_store]
        · obtain ⟨u, h1, h2⟩ := ih hd' hn.2 _ hr hx'
          refine ⟨u, h1, h2.imp_right fun h => ⟨h.1, h.2.1.trans ?_, h.2.2⟩⟩
          unfold Var.get
          rw [hstore]
          simp only [find_store, hother x hx', if_false]
      · rename_i hno
        rcases List.mem_cons.1 hx with rfl | hx'
        · refine ⟨v, hv, .inr ⟨?_, ?_, ?_⟩⟩
          · intro h
            have := (validate_ok x.validators v).2 h
            rw [hno] at this; cases this
          · unfold Var.get
            rw [readVars_other w p ys _ x.key hother]
          · obtain ⟨n, h⟩ := readVars_problems w p ys
              { st with problems := st.problems ++ [.value x.key v] }
            rw [h]; simp
        · obtain ⟨u, h1, h2⟩ := ih hd' hn.2 _ hr hx'
          exact ⟨u, h1, h2⟩
      · cases hr

/-! ### Where it fails -/

def someWorld : World :=
  { readInt := fun s => if s = "5".toList then some 5 else Option.none, readFloat := fun _ => Option.none }

def allGood : St → Verdict := fun _ => .ok

/-- Only texts of at most three characters. -/
def short : Validator :=
  { unset := false, notUnset := false,
    check := fun v => match v with
      | .str s => if s.length ≤ 3 then .ok else .refuse
      | _ => .raise }

def vA : Var := mkVar "a__b".toList "c".toList .str .unset []
def vB : Var := mkVar "a".toList "b__c".toList .str .unset [short]

/-- **C39** does not hold for variables whose section and name run together: `a__b` / `c` and `a` /
`b__c` share their place, so one gets values the other would refuse. -/
theorem C39_collision_violated : ∃ v, v ≠ vB.default ∧ ¬Valid vB v ∧
    vB.get (run someWorld [vA, vB] allGood [.assign vA v] init) = v := by
  refine ⟨.str "long text".toList, by decide, ?_, by decide +kernel⟩
  intro h
  have := h short (by simp [vB, mkVar, short])
  revert this
  decide +kernel

def vInt : Var := mkVar DEFAULT "n".toList .int (.int 1) []

/-- **C39** does not hold for exceptions: a text where a number is expected, an option without a value
and a stray percent sign come out of `read_string` as exceptions, and are not recorded. -/
theorem C39_raise_violated :
    let r := fun g => step someWorld [vInt] allGood (.readString false (fun _ _ => g) false) init
    ((r (.value (some "five".toList))).2, (r (.value (some "five".toList))).1.problems) = (true, []) ∧
    ((r (.value Option.none)).2, (r (.value Option.none)).1.problems) = (true, []) ∧
    ((r .error).2, (r .error).1.problems) = (true, []) := by
  decide +kernel

/-- **C39** does not hold for `read`: any syntax error in a file is raised, not recorded. -/
theorem C39_syntax_violated (w : World) (xs : List Var) (whole : St → Verdict) (p : Parser) (f : Bool)
    (st : St) : (step w xs whole (.read true p f) st).2 = true ∧
      (step w xs whole (.read true p f) st).1.problems = [] := ⟨rfl, rfl⟩

/-- A history: a good assignment, a refused one, a read with a refused value that keeps the old one, a
read without the option, which goes back to the default. -/
example :
    let x := mkVar DEFAULT "x".toList .str (.str "d".toList) [short]
    let p : Parser := fun _ o => if o = "x".toList then .value (some "long text".toList) else .missing
    (run someWorld [x, vInt] allGood [.assign x (.str "abc".toList), .assign x (.str "abcd".toList)] init).vars
      = [(x.key, .str "abc".toList)] ∧
    x.get (run someWorld [x, vInt] allGood [.assign x (.str "abc".toList), .readString false p false] init)
      = .str "abc".toList ∧
    (run someWorld [x, vInt] allGood [.assign x (.str "abc".toList), .readString false p false] init).problems
      = [.value x.key (.str "long text".toList)] ∧
    x.get (run someWorld [x, vInt] allGood [.assign x (.str "abc".toList),
      .readString true (fun _ _ => .missing) false] init) = .str "d".toList := by decide +kernel

/-- A valid value, one that is not, and a deletion. -/
example : (vInt.set (.int 5) init).2 = .ok ∧ vInt.get (vInt.set (.int 5) init).1 = .int 5 ∧
    (vInt.set (.str "x".toList) init).2 ≠ .ok ∧ vInt.get (vInt.del (vInt.set (.int 5) init).1).1 = .int 1 := by decide

example : Distinct [vInt, vA] := by
  intro x hx y hy h
  simp only [List.mem_cons, List.not_mem_nil, or_false] at hx hy
  rcases hx with rfl | rfl <;> rcases hy with rfl | rfl
  · rfl
  · exact absurd h (by decide +kernel)
  · exact absurd h (by decide +kernel)
  · rfl

end Verif.Config
