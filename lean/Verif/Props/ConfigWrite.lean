import Verif.Props.Config

/-!
# C58: configuration, written and read back

`C58_partial`: the values that survive.  `C58_percent_violated`, `C58_double_violated`,
`C58_list_violated`, `C58_unset_violated`, `C58_default_violated`: values that do not.
-/

namespace Verif.Config

open Verif.Restart

/-! ## Specification -/

/-- A character that stands for itself inside an item of a list. -/
def Plain (c : Char) : Prop :=
  c ≠ ' ' ∧ c ≠ '\t' ∧ c ≠ '\r' ∧ c ≠ '\n' ∧ c ≠ ',' ∧ c ≠ '\'' ∧ c ≠ '"' ∧ c ≠ '\\' ∧ c ≠ '%'

/-- The values of the kind of a variable that are written so that they can be read back. -/
def Survives (w : World) (pr : Printer) : Kind → Val → Prop
  | .str, .str s => '%' ∉ s
  | .bool, .bool _ => True
  | .int, .int i => '%' ∉ pr.showInt i ∧ w.readInt (pr.showInt i) = some i
  | .float, .float f => '%' ∉ pr.showFloat f ∧ w.readFloat (pr.showFloat f) = some f
  | .list, .list l => ∀ a ∈ l, a ≠ [] ∧ ∀ c ∈ a, Plain c
  | _, _ => False

/-! ## Lemmas -/

theorem findOpt_storeOpt (k j : Str × Str) (v : Str) (d : List ((Str × Str) × Str)) :
    findOpt j (storeOpt k v d) = if j = k then some v else findOpt j d := by
  induction d with
  | nil => simp only [storeOpt, findOpt]; by_cases h : k = j <;> simp [h, eq_comm]
  | cons e d ih =>
    obtain ⟨i, u⟩ := e
    simp only [storeOpt]
    split
    · rename_i h
      subst h
      simp only [findOpt]
      by_cases hj : i = j
      · simp [hj]
      · simp [hj, Ne.symm hj]
    · rename_i h
      simp only [findOpt, ih]
      by_cases hj : i = j
      · subst hj; simp [h]
      · simp [hj]

theorem interp_self (s : Str) (h : '%' ∉ s) : interp s = some s := by
  induction s with
  | nil => rfl
  | cons c s ih =>
    simp only [List.mem_cons, not_or] at h
    cases s with
    | nil => simp [interp, Ne.symm h.1]
    | cons d s => simp [interp, Ne.symm h.1, ih h.2]

theorem lex_plain (a rest tok : Str) (h : ∀ c ∈ a, Plain c) :
    lex (a ++ rest) .word tok false = lex rest .word (tok ++ a) false := by
  induction a generalizing tok with
  | nil => simp
  | cons c a ih =>
    have hc := h c (by simp)
    unfold Plain at hc
    rw [List.cons_append, lex]
    simp only [isWs, hc.1, hc.2.1, hc.2.2.1, hc.2.2.2.1, hc.2.2.2.2.2.1, hc.2.2.2.2.2.2.1,
      hc.2.2.2.2.2.2.2.1, decide_false, Bool.or_self, Bool.false_eq_true, if_false, or_self]
    rw [ih _ fun d hd => h d (by simp [hd])]
    simp

theorem lex_plain_ws (a rest : Str) (ha : a ≠ []) (h : ∀ c ∈ a, Plain c) :
    lex (a ++ rest) .ws [] false = lex rest .word a false := by
  cases a with
  | nil => exact absurd rfl ha
  | cons c a =>
    have hc := h c (by simp)
    unfold Plain at hc
    rw [List.cons_append, lex]
    simp only [isWs, hc.1, hc.2.1, hc.2.2.1, hc.2.2.2.1, hc.2.2.2.2.2.1, hc.2.2.2.2.2.2.1,
      hc.2.2.2.2.2.2.2.1, decide_false, Bool.or_self, Bool.false_eq_true, if_false, or_self]
    rw [lex_plain _ _ _ fun d hd => h d (by simp [hd])]
    simp

theorem comma_self (a : Str) (h : ∀ c ∈ a, Plain c) : (a.map fun c => if c = ',' then ' ' else c) = a := by
  induction a with
  | nil => rfl
  | cons c a ih =>
    have hc : c ≠ ',' := (h c (by simp)).2.2.2.2.1
    simp only [List.map_cons, hc, if_false, ih fun d hd => h d (by simp [hd])]

theorem readList_join (l : List Str) (h : ∀ a ∈ l, a ≠ [] ∧ ∀ c ∈ a, Plain c) :
    readList (List.flatten (List.intersperse ", ".toList l)) = some l := by
  unfold readList split
  induction l with
  | nil => rfl
  | cons a l ih =>
    have ha := h a (by simp)
    have ih := ih fun b hb => h b (by simp [hb])
    cases l with
    | nil =>
      simp only [List.intersperse_singleton, List.flatten_cons, List.flatten_nil, List.append_nil]
      rw [comma_self a ha.2]
      have := lex_plain_ws a [] ha.1 ha.2
      rw [List.append_nil] at this
      rw [this]
      simp [lex, ha.1]
    | cons b l =>
      have e : (List.intersperse ", ".toList (a :: b :: l)).flatten =
          a ++ (',' :: ' ' :: (List.intersperse ", ".toList (b :: l)).flatten) := by
        rw [List.intersperse_cons_cons]; rfl
      rw [e]
      simp only [List.map_append, List.map_cons]
      rw [comma_self a ha.2, lex_plain_ws _ _ ha.1 ha.2]
      have e2 : (if (' ' : Char) = ',' then ' ' else ' ') = ' ' := rfl
      simp only [e2]
      generalize hm : List.map (fun c => if c = ',' then ' ' else c)
        (List.intersperse ", ".toList (b :: l)).flatten = m at ih ⊢
      simp [lex, isWs, ha.1, ih]

theorem survives_text (w : World) (pr : Printer) (k : Kind) (v : Val) (h : Survives w pr k v) :
    '%' ∉ showVal pr v ∧ v ≠ .unset ∧ readKind w k (some (showVal pr v)) = some v := by
  cases k <;> cases v <;> simp only [Survives] at h
  case bool.bool b =>
    have h1 : readBool (lower "True".toList) = some true := by decide +kernel
    have h2 : readBool (lower "False".toList) = some false := by decide +kernel
    cases b
    · exact ⟨by simp only [showVal]; decide +kernel, by simp, by simp only [readKind, showVal, h2, Option.map_some]⟩
    · exact ⟨by simp only [showVal]; decide +kernel, by simp, by simp only [readKind, showVal, h1, Option.map_some]⟩
  case int.int i => exact ⟨h.1, by simp, by simp [readKind, showVal, h.2]⟩
  case float.float f => exact ⟨h.1, by simp, by simp [readKind, showVal, h.2]⟩
  case str.str s => exact ⟨h, by simp, rfl⟩
  case list.list l =>
    refine ⟨?_, by simp, ?_⟩
    · simp only [showVal]
      induction l with
      | nil => simp
      | cons a l ih =>
        have ih := ih fun b hb => h b (by simp [hb])
        have ha : '%' ∉ a := fun hm => ((h a (by simp)).2 _ hm).2.2.2.2.2.2.2.2 rfl
        cases l with
        | nil => simpa using ha
        | cons b l =>
          rw [List.intersperse_cons_cons, List.flatten_cons, List.flatten_cons]
          simp only [List.mem_append, not_or]
          exact ⟨ha, by decide +kernel, ih⟩
    · simp only [readKind, showVal, readList_join l h, Option.map_some]

theorem toParser_spec (pr : Printer) (st : St) (xs : List Var) (d : Data)
    (hs : ∀ x ∈ xs, x.get st = .unset ∨ settable (showVal pr (x.get st)) = true) :
    ∃ d', toParser pr st xs d = some d' ∧
      (∀ s ∈ d.sections, s ∈ d'.sections) ∧
      (∀ x ∈ xs, x.sec = DEFAULT ∨ x.sec ∈ d'.sections) ∧
      (∀ k, (∀ x ∈ xs, x.get st ≠ .unset → (x.sec, x.name) ≠ k) → findOpt k d'.opts = findOpt k d.opts) ∧
      ((∀ x ∈ xs, ∀ y ∈ xs, (x.sec, x.name) = (y.sec, y.name) → x = y) →
        ∀ x ∈ xs, x.get st ≠ .unset → findOpt (x.sec, x.name) d'.opts = some (showVal pr (x.get st))) := by
  induction xs generalizing d with
  | nil => exact ⟨d, rfl, fun _ h => h, by simp, fun _ _ => rfl, by simp⟩
  | cons x xs ih =>
    have hs' := fun y hy => hs y (List.mem_cons_of_mem _ hy)
    simp only [toParser]
    generalize hd1 : (if x.sec ∈ d.sections ∨ x.sec = DEFAULT then d
      else { d with sections := d.sections ++ [x.sec] }) = d1
    have h1 : (∀ s ∈ d.sections, s ∈ d1.sections) ∧ (x.sec = DEFAULT ∨ x.sec ∈ d1.sections) ∧
        d1.opts = d.opts := by
      subst hd1
      split
      · rename_i h; exact ⟨fun _ h => h, h.symm, rfl⟩
      · exact ⟨fun s h => by simp [h], .inr (by simp), rfl⟩
    by_cases hu : x.get st = .unset
    · rw [if_pos hu]
      obtain ⟨d', e, a, b, c, f⟩ := ih d1 hs'
      refine ⟨d', e, fun s h => a s (h1.1 s h), ?_, ?_, ?_⟩
      · intro y hy
        rcases List.mem_cons.1 hy with rfl | hy
        · exact h1.2.1.imp_right (a _)
        · exact b y hy
      · intro k hk
        rw [c k fun y hy => hk y (by simp [hy]), h1.2.2]
      · intro hd y hy hne
        rcases List.mem_cons.1 hy with rfl | hy
        · exact absurd hu hne
        · exact f (fun a ha b hb => hd a (by simp [ha]) b (by simp [hb])) y hy hne
    · rw [if_neg hu, if_pos ((hs x (by simp)).resolve_left hu)]
      obtain ⟨d', e, a, b, c, f⟩ := ih
        { d1 with opts := storeOpt (x.sec, x.name) (showVal pr (x.get st)) d1.opts } hs'
      refine ⟨d', e, fun s h => a s (h1.1 s h), ?_, ?_, ?_⟩
      · intro y hy
        rcases List.mem_cons.1 hy with rfl | hy
        · exact h1.2.1.imp_right (a _)
        · exact b y hy
      · intro k hk
        rw [c k fun y hy => hk y (by simp [hy]), findOpt_storeOpt, if_neg (Ne.symm (hk x (by simp) hu)), h1.2.2]
      · intro hd y hy hne
        have hd' : ∀ x ∈ xs, ∀ y ∈ xs, (x.sec, x.name) = (y.sec, y.name) → x = y :=
          fun a ha b hb => hd a (by simp [ha]) b (by simp [hb])
        by_cases hm : y ∈ xs
        · exact f hd' y hm hne
        · rcases List.mem_cons.1 hy with rfl | hy
          · rw [c _ ?_, findOpt_storeOpt, if_pos rfl]
            intro z hz _ he
            exact hm (hd z (by simp [hz]) y (by simp) he ▸ hz)
          · exact absurd hy hm

/-! ## C58 -/

/-- Data of a new parser. -/
def noData : Data := { sections := [], opts := [] }

/-- **C58**, partial: after any history, if every variable is unset (with no default and no set variable
of that name in `DEFAULT`) or has a value that survives, then writing does not fail, and a new object
that reads what was written has the same value for every variable.  Full statement: without these
conditions; each of them is needed (`C58_percent_violated`, `C58_double_violated`, `C58_list_violated`,
`C58_unset_violated`, `C58_default_violated`). -/
theorem C58_partial (w : World) (pr : Printer) (xs : List Var) (hd : Distinct xs) (hn : xs.Nodup)
    (whole : St → Verdict) (os : List Op) (ho : ∀ o ∈ os, o.on xs) (st : St)
    (hst : st = run w xs whole os init)
    (hv : ∀ x ∈ xs, Survives w pr x.kind (x.get st) ∨ (x.get st = .unset ∧ x.default = .unset ∧
      ∀ y ∈ xs, y.sec = DEFAULT → y.name = x.name → y.get st = .unset))
    (hr : ∀ x ∈ xs, validate x.validators (x.get st) ≠ .raise) :
    ∃ d, toParser pr st xs noData = some d ∧ (readVars w d.get xs init).2 = false ∧
      ∀ x ∈ xs, x.get (readVars w d.get xs init).1 = x.get st := by
  have hkey : ∀ x ∈ xs, ∀ y ∈ xs, (x.sec, x.name) = (y.sec, y.name) → x = y := by
    intro x hx y hy h
    refine hd x hx y hy ?_
    simp only [Prod.mk.injEq] at h
    simp [Var.key, h.1, h.2]
  obtain ⟨d, hd1, -, hsec, hnone, hsome⟩ := toParser_spec pr st xs noData (by
    intro x hx
    rcases hv x hx with h | h
    · exact .inr (settable_of _ (survives_text w pr _ _ h).1)
    · exact .inl h.1)
  have hread : ∀ x ∈ xs, readVar w d.get x = some (x.get st) := by
    intro x hx
    have hs : x.sec = DEFAULT ∨ x.sec ∈ d.sections := hsec x hx
    rcases hv x hx with h | ⟨h, hdef, hno⟩
    · obtain ⟨hp, hu, hk⟩ := survives_text w pr _ _ h
      simp only [readVar, Data.get, if_pos hs, hsome hkey x hx hu, Option.some_or, interp_self _ hp, hk]
    · have e1 : findOpt (x.sec, x.name) d.opts = Option.none := by
        refine hnone _ ?_
        intro y hy hyu he
        have := hkey y hy x hx he
        subst this
        exact hyu h
      have e2 : findOpt (DEFAULT, x.name) d.opts = Option.none := by
        refine hnone _ ?_
        intro y hy hyu he
        simp only [Prod.mk.injEq] at he
        exact hyu (hno y hy he.1 he.2)
      simp only [readVar, Data.get, if_pos hs, e1, e2, Option.or_none, h, hdef]
  have hraise : (readVars w d.get xs init).2 = false := by
    cases hb : (readVars w d.get xs init).2
    · rfl
    · obtain ⟨x, hx, h⟩ := (readVars_raises w d.get xs init).1 hb
      rcases h with h | ⟨v, h1, h2⟩
      · rw [hread x hx] at h; cases h
      · rw [hread x hx] at h1; cases h1; exact absurd h2 (hr x hx)
  refine ⟨d, hd1, hraise, fun x hx => ?_⟩
  obtain ⟨v, h1, h2⟩ := C39_read w d.get xs hd hn init hraise x hx
  rw [hread x hx] at h1
  cases h1
  rcases h2 with h2 | h2
  · exact h2.2
  · have hval := C39_valid w xs hd whole os ho x hx
    rw [← hst] at hval
    rcases hval with h | h
    · rw [h2.2.1, h]; rfl
    · exact absurd h h2.1

/-! ### Values that are lost -/

def somePrinter : Printer := { showInt := fun _ => "5".toList, showFloat := fun _ => [] }

def vText : Var := mkVar "s".toList "t".toList .str .unset []
def vList : Var := mkVar "s".toList "l".toList .list .unset []
def vDef : Var := mkVar "s".toList "d".toList .str (.str "x".toList) []
def vTop : Var := mkVar DEFAULT "t".toList .str .unset []

/-- What a new object has after reading what was written. -/
def again (xs : List Var) (st : St) (x : Var) : Option Val :=
  (toParser somePrinter st xs noData).map fun d => x.get (readVars someWorld d.get xs init).1

/-- A percent sign makes writing fail with `ValueError`. -/
theorem C58_percent_violated :
    again [vText] (run someWorld [vText] allGood [.assign vText (.str "50%".toList)] init) vText =
      Option.none := by decide +kernel

/-- Two percent signs come back as one. -/
theorem C58_double_violated :
    again [vText] (run someWorld [vText] allGood [.assign vText (.str "50%%".toList)] init) vText =
      some (.str "50%".toList) := by decide +kernel

/-- Items of a list with spaces fall apart. -/
theorem C58_list_violated :
    again [vList] (run someWorld [vList] allGood [.assign vList (.list ["a b".toList, "c".toList])] init) vList
      = some (.list ["a".toList, "b".toList, "c".toList]) := by decide +kernel

/-- A variable set to `Unset` comes back with its default. -/
theorem C58_unset_violated :
    again [vDef] (run someWorld [vDef] allGood [.assign vDef .unset] init) vDef = some (.str "x".toList) := by
  decide +kernel

/-- An unset variable comes back with the value of the variable of that name in `DEFAULT`. -/
theorem C58_default_violated :
    vText.get (run someWorld [vTop, vText] allGood [.assign vTop (.str "x".toList)] init) = .unset ∧
    again [vTop, vText] (run someWorld [vTop, vText] allGood [.assign vTop (.str "x".toList)] init) vText =
      some (.str "x".toList) := by decide +kernel

/-- A case that meets the hypotheses of `C58_partial`: text, a list, an unset variable. -/
example :
    let xs := [vTop, vList, mkVar "s".toList "u".toList .int .unset []]
    let st := run someWorld xs allGood [.assign vTop (.str "a, \"b\"\nc".toList),
      .assign vList (.list ["a-1".toList, "b".toList])] init
    (∀ x ∈ xs, Survives someWorld somePrinter x.kind (x.get st) ∨ (x.get st = .unset ∧ x.default = .unset ∧
      ∀ y ∈ xs, y.sec = DEFAULT → y.name = x.name → y.get st = .unset)) ∧
    again xs st vTop = some (.str "a, \"b\"\nc".toList) ∧
    again xs st vList = some (.list ["a-1".toList, "b".toList]) := by
  refine ⟨?_, by decide +kernel, by decide +kernel⟩
  intro x hx
  simp only [List.mem_cons, List.not_mem_nil, or_false] at hx
  rcases hx with rfl | rfl | rfl
  · left
    show '%' ∉ _
    decide +kernel
  · left
    show ∀ a ∈ ["a-1".toList, "b".toList], a ≠ [] ∧ ∀ c ∈ a, Plain c
    simp only [Plain]
    decide +kernel
  · right
    refine ⟨by decide +kernel, by decide +kernel, ?_⟩
    intro y hy h1 h2
    simp only [List.mem_cons, List.not_mem_nil, or_false] at hy
    rcases hy with rfl | rfl | rfl
    · exact absurd h2 (by decide +kernel)
    · exact absurd h1 (by decide +kernel)
    · exact absurd h1 (by decide +kernel)

end Verif.Config
