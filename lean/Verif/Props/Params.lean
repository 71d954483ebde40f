import Verif.Model.Params

/-!
# C146: test cases with parameters

The specification speaks of the list of values that a class has: for each of them one test is run, which finds its values by name.
-/

namespace Verif.Params

variable {V : Type}

/-! ## Running -/

theorem runFrom_good (c : Case V) (vss : List (List V)) (h : ∀ vs ∈ vss, vs.length = c.cls.names.length) (i : Nat) :
    runFrom c i vss = (vss.map fun vs => ⟨c.cls, c.method, some ⟨c.cls.names, vs⟩⟩, none) := by
  induction vss generalizing i with
  | nil => rfl
  | cons vs vss ih =>
    have h0 := h vs (List.mem_cons_self ..)
    simp [runFrom, h0, ih (fun vs hv => h vs (List.mem_cons_of_mem _ hv)), Case.bind]

/-- **C146_once**: if each list of values has as many as there are names, exactly one test is run for each of them, in order, and
as many as are counted. -/
theorem C146_once (c : Case V) (hc : c.params = none) (h : ∀ vs ∈ c.cls.values, vs.length = c.cls.names.length) :
    c.run.2 = none ∧ c.run.1.length = c.count ∧
    ∀ i (hi : i < c.cls.values.length), c.run.1[i]? = some ⟨c.cls, c.method, some ⟨c.cls.names, c.cls.values[i]⟩⟩ := by
  have hr := runFrom_good c c.cls.values h 0
  rw [Case.run, hr]
  refine ⟨rfl, by simp [Case.count, hc], fun i hi => by simp [hi]⟩

/-- **C146_refused**: values with a wrong length are refused, and nothing is run for them or after them, but all before them. -/
theorem C146_refused (c : Case V) (a b : List (List V)) (bad : List V) (hv : c.cls.values = a ++ bad :: b)
    (ha : ∀ vs ∈ a, vs.length = c.cls.names.length) (hb : bad.length ≠ c.cls.names.length) :
    c.run.2 = some (a.length, c.cls.names.length, bad.length) ∧ c.run.1.map (·.params) = a.map fun vs => some ⟨c.cls.names, vs⟩ := by
  have key : ∀ i, runFrom c i (a ++ bad :: b) =
      (a.map fun vs => ⟨c.cls, c.method, some ⟨c.cls.names, vs⟩⟩, some (i + a.length, c.cls.names.length, bad.length)) := by
    clear hv
    induction a with
    | nil => intro i; simp [runFrom, hb]
    | cons vs a ih =>
      intro i
      have h0 := ha vs (List.mem_cons_self ..)
      have := ih (fun vs hv => ha vs (List.mem_cons_of_mem _ hv)) (i + 1)
      simp [runFrom, h0, this, Case.bind]
      omega
  rw [Case.run, hv, key 0]
  exact ⟨by simp, by simp⟩

/-- A test that already has values counts as one, but runs all of them again. -/
theorem C146_bound_violated : ∃ c : Case Nat, c.count = 1 ∧ c.run.1.length = 2 :=
  ⟨⟨⟨0, ['T'], [['a']], [[1], [2]]⟩, ['t'], some ⟨[['a']], [1]⟩⟩, by decide⟩

/-! ## Reading values -/

theorem index_get {ns : List Str} (hn : ns.Nodup) {i : Nat} (hi : i < ns.length) : index ns[i] ns = some i := by
  induction ns generalizing i with
  | nil => simp at hi
  | cons n ns ih =>
    cases i with
    | zero => simp [index]
    | succ i =>
      rw [List.nodup_cons] at hn
      have hi' : i < ns.length := by simpa using hi
      have hne : n ≠ ns[i] := fun e => hn.1 (e ▸ List.getElem_mem hi')
      simp [index, hne, ih hn.2 hi']

theorem index_none {ns : List Str} {n : Str} (h : n ∉ ns) : index n ns = none := by
  induction ns with
  | nil => rfl
  | cons m ns ih =>
    rw [List.mem_cons, not_or] at h
    simp [index, Ne.symm h.1, ih h.2]

/-- **C146_lookup_partial**: a test finds each value under its name, and nothing under a name that is none. Missing: names that
every object has. -/
theorem C146_lookup_partial (own : Str → Bool) (p : Params V) (hn : p.names.Nodup) (hl : p.values.length = p.names.length) :
    (∀ i (hi : i < p.names.length), own p.names[i] = false → p.get own p.names[i] = .value (p.values[i]'(by omega))) ∧
    (∀ n, n ∉ p.names → own n = false → p.get own n = .missing) := by
  constructor
  · intro i hi ho
    have hi' : i < p.values.length := by omega
    simp [Params.get, ho, index_get hn hi, hi']
  · intro n h ho
    simp [Params.get, ho, index_none h]

/-- A parameter that has the name of an attribute cannot be read. -/
theorem C146_lookup_violated : (Params.mk ["_names".toList] [1]).get (fun n => n = "_names".toList) "_names".toList = .own := by
  decide

/-! ## Telling tests apart -/

/-- **C146_equal**: two tests of a class, for the same method, are equal exactly if they have the same values. -/
theorem C146_equal [DecidableEq V] (c : Case V) (i j : Nat) (a b : Case V) (ha : c.run.1[i]? = some a) (hb : c.run.1[j]? = some b) :
    a.eq b = true ↔ c.cls.values[i]? = c.cls.values[j]? := by
  have key : ∀ (vss : List (List V)) (k n : Nat) (x : Case V), (runFrom c k vss).1[n]? = some x →
      ∃ vs, vss[n]? = some vs ∧ x = ⟨c.cls, c.method, some ⟨c.cls.names, vs⟩⟩ := by
    intro vss
    induction vss with
    | nil => intro k n x h; simp [runFrom] at h
    | cons vs vss ih =>
      intro k n x h
      unfold runFrom at h
      split at h
      · simp at h
      · cases n with
        | zero => simp [Case.bind] at h; exact ⟨vs, rfl, h.symm⟩
        | succ n => simp at h; simpa using ih (k + 1) n x h
  obtain ⟨v, hv, rfl⟩ := key _ _ _ _ ha
  obtain ⟨w, hw, rfl⟩ := key _ _ _ _ hb
  simp [Case.eq, hv, hw]

/-- **C146_hash_partial**: tests of a class that are equal have the same hash. Missing: tests that have values, and tests of
different classes. -/
theorem C146_hash_partial [DecidableEq V] (a b : Case V) (hc : a.cls = b.cls) (hp : a.params = none) (h : a.eq b = true) :
    a.hash = b.hash ∧ a.hash ≠ none := by
  simp [Case.eq] at h
  have hq : b.params = none := h.2 ▸ hp
  simp [Case.hash, hp, hq, hc, h.1]

/-- Tests that are run have no hash, so that they cannot be in a set; tests of different classes are equal if their methods have
the same name, with different hashes. -/
theorem C146_hash_violated :
    (∀ c : Case Nat, ∀ x ∈ c.run.1, x.hash = none) ∧ ∃ a b : Case Nat, a.eq b = true ∧ a.hash ≠ b.hash := by
  refine ⟨fun c => ?_, ⟨⟨0, ['A'], [], []⟩, ['t'], none⟩, ⟨⟨1, ['B'], [], []⟩, ['t'], none⟩, by decide⟩
  have : ∀ (vss : List (List Nat)) (k : Nat), ∀ x ∈ (runFrom c k vss).1, x.hash = none := by
    intro vss
    induction vss with
    | nil => intro k x h; simp [runFrom] at h
    | cons vs vss ih =>
      intro k x h
      unfold runFrom at h
      split at h
      · simp at h
      · rcases List.mem_cons.mp h with rfl | h
        · rfl
        · exact ih _ x h
  exact this _ _

/-- What follows a value: nothing, or the next name. -/
theorem split_comma {v v' r r' : Str} (hv : ',' ∉ v) (hv' : ',' ∉ v') (hr : r = [] ∨ ∃ s, r = ',' :: s)
    (hr' : r' = [] ∨ ∃ s, r' = ',' :: s) (h : v ++ r = v' ++ r') : v = v' ∧ r = r' := by
  induction v generalizing v' with
  | nil =>
    cases v' with
    | nil => exact ⟨rfl, h⟩
    | cons c v' =>
      rcases hr with rfl | ⟨s, rfl⟩
      · simp at h
      · simp at h
        exact absurd (h.1 ▸ List.mem_cons_self ..) hv'
  | cons c v ih =>
    cases v' with
    | nil =>
      rcases hr' with rfl | ⟨s, rfl⟩
      · simp at h
      · simp at h
        exact absurd (h.1 ▸ List.mem_cons_self ..) hv
    | cons d v' =>
      simp only [List.cons_append, List.cons.injEq] at h
      rw [List.mem_cons, not_or] at hv hv'
      obtain ⟨h1, h2⟩ := ih hv.2 hv'.2 h.2
      exact ⟨by rw [h.1, h1], h2⟩

theorem join_cons (s : Str) (ss : List Str) : join (s :: ss) = s ++ (if ss = [] then [] else ',' :: ' ' :: join ss) := by
  cases ss <;> simp [join]

theorem text_inj (str : V → Str) (ns : List Str) : ∀ (vs ws : List V), vs.length = ns.length → ws.length = ns.length →
    (∀ v ∈ vs, ',' ∉ str v) → (∀ w ∈ ws, ',' ∉ str w) → (Params.mk ns vs).text str = (Params.mk ns ws).text str →
    vs.map str = ws.map str := by
  induction ns with
  | nil =>
    intro vs ws h1 h2 _ _ _
    have e1 : vs = [] := List.length_eq_zero_iff.mp h1
    have e2 : ws = [] := List.length_eq_zero_iff.mp h2
    rw [e1, e2]
  | cons n ns ih =>
    intro vs ws h1 h2 hv hw h
    cases vs with
    | nil => simp at h1
    | cons v vs =>
    cases ws with
    | nil => simp at h2
    | cons w ws =>
      simp only [List.length_cons, Nat.add_right_cancel_iff] at h1 h2
      simp only [Params.text, List.zip_cons_cons, List.map_cons, join_cons, List.append_assoc, List.cons_append] at h
      have h := List.append_cancel_left h
      simp only [List.cons.injEq, true_and] at h
      have hs := split_comma (hv v (List.mem_cons_self ..)) (hw w (List.mem_cons_self ..))
        (by split <;> simp) (by split <;> simp) h
      rw [List.map_cons, List.map_cons, hs.1]
      congr 1
      apply ih vs ws h1 h2 (fun x hx => hv x (List.mem_cons_of_mem _ hx)) (fun x hx => hw x (List.mem_cons_of_mem _ hx))
      by_cases hz : ns = []
      · subst hz
        rfl
      · have z1 : (ns.zip vs).map (fun x => x.1 ++ ':' :: ' ' :: str x.2) ≠ [] := by
          intro e; have := congrArg List.length e; simp [h1] at this; exact hz this
        have z2 : (ns.zip ws).map (fun x => x.1 ++ ':' :: ' ' :: str x.2) ≠ [] := by
          intro e; have := congrArg List.length e; simp [h2] at this; exact hz this
        have := hs.2
        rw [if_neg z1, if_neg z2] at this
        simpa [Params.text] using this

/-- **C146_named_partial**: the name under which a test is reported tells its values. Missing: values whose text has a comma. -/
theorem C146_named_partial (str : V → Str) (c : Case V) (vs ws : List V) (h1 : vs.length = c.cls.names.length)
    (h2 : ws.length = c.cls.names.length) (hv : ∀ v ∈ vs, ',' ∉ str v) (hw : ∀ w ∈ ws, ',' ∉ str w)
    (h : (c.bind ⟨c.cls.names, vs⟩).ident str = (c.bind ⟨c.cls.names, ws⟩).ident str) : vs.map str = ws.map str := by
  simp only [Case.ident, Case.bind, List.append_assoc, List.cons_append] at h
  have h := List.append_cancel_left h
  simp only [List.cons.injEq, true_and] at h
  have h := List.append_cancel_left h
  simp only [List.cons.injEq, true_and] at h
  exact text_inj str _ vs ws h1 h2 hv hw (List.append_cancel_right h)

theorem join_eq (ss : List Str) : join ss = [',', ' '].intercalate ss := by
  induction ss with
  | nil => rfl
  | cons s ss ih =>
    cases ss with
    | nil => simp [join, List.intercalate]
    | cons t ss =>
      rw [join, ih]
      · simp [List.intercalate, List.intersperse]
      · simp

/-- **C146_reads**: a test is reported by its class, its method, and each value with its name. -/
theorem C146_reads (str : V → Str) (c : Case V) (ns : List Str) (vs : List V) :
    (c.bind ⟨ns, vs⟩).ident str = c.cls.text ++ ['.'] ++ c.method ++ [' ', '['] ++
      [',', ' '].intercalate (List.zipWith (fun n v => n ++ [':', ' '] ++ str v) ns vs) ++ [']'] := by
  have : (ns.zip vs).map (fun x => x.1 ++ ':' :: ' ' :: str x.2) = List.zipWith (fun n v => n ++ [':', ' '] ++ str v) ns vs := by
    rw [List.zip, List.map_zipWith]
    simp
  simp [Case.ident, Case.bind, Params.text, join_eq, this]

/-- Tests with different values can be reported under the same name. -/
theorem C146_named_violated : ∃ (c : Case Str) (vs ws : List Str), vs ≠ ws ∧ vs.length = c.cls.names.length ∧
    ws.length = c.cls.names.length ∧ (c.bind ⟨c.cls.names, vs⟩).ident id = (c.bind ⟨c.cls.names, ws⟩).ident id :=
  ⟨⟨⟨0, ['T'], [['a'], ['b']], []⟩, ['t'], none⟩, ["1".toList, "2, b: 3".toList], ["1, b: 2".toList, "3".toList], by decide⟩

/-- A class with two parameters, for which a test is run twice. -/
def sample : Case Nat := ⟨⟨0, "T".toList, ["a".toList, "b".toList], [[1, 2], [3, 4]]⟩, "test".toList, none⟩

example : sample.run.1.length = 2 ∧ sample.run.2 = none ∧ sample.count = 2 ∧
    (∀ vs ∈ sample.cls.values, vs.length = sample.cls.names.length) := by decide
example : sample.run.1.map (·.ident fun n => (toString n).toList) = ["T.test [a: 1, b: 2]".toList, "T.test [a: 3, b: 4]".toList] := by
  decide
example : (sample.run.1.map (·.params.map (·.get (fun _ => false) "b".toList))) = [some (.value 2), some (.value 4)] := by decide
example : (Case.run (⟨{ sample.cls with values := [[1, 2], [3], [4, 5]] }, "test".toList, none⟩ : Case Nat)).2 = some (1, 2, 1) := by
  decide

end Verif.Params
