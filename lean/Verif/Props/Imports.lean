import Verif.Model.Resource

/-!
# C56: which resource a name in a requirement expression denotes

* `C56_import_line`: exactly which import lines are accepted and what they mean.
* `C56_resolution`: the resource ids of an expression are those its names denote, in the order of the
  names.
* `C56_imported`: an imported name denotes the imported resource, whatever the namespace of the job.
-/

namespace Verif.Resource

/-- Import lines, split at white space, and their meaning: a resource id and the name it gets. -/
inductive Imports (hasNs : String → Bool) : List String → String → String → Prop
  | plain (ns id : String) : hasNs ns = false → hasNs id = false →
      Imports hasNs ["from", ns, "import", id] (ns ++ "::" ++ id) id
  | named (ns id alias : String) : hasNs ns = false → hasNs id = false →
      Imports hasNs ["from", ns, "import", id, "as", alias] (ns ++ "::" ++ id) alias

/-- What a name denotes in the namespace of a job, given imports. -/
inductive Denotes (hasNs : String → Bool) (ns : Option String) (imports : List (String × String))
    (x : String) : String → Prop
  /-- the first import for the name, if it is qualified -/
  | imported (pre post : List (String × String)) (rid : String) :
      imports = pre ++ (rid, x) :: post → (∀ p ∈ pre, p.2 ≠ x) → hasNs rid = true →
      Denotes hasNs ns imports x rid
  /-- a qualified name denotes itself (never the case for python identifiers) -/
  | qualified : (∀ p ∈ imports, p.2 ≠ x) → hasNs x = true → Denotes hasNs ns imports x x
  /-- other names denote the resource of the namespace of the job -/
  | local (n : String) : (∀ p ∈ imports, p.2 ≠ x) → hasNs x = false → ns = some n → n ≠ "" →
      Denotes hasNs ns imports x (n ++ "::" ++ x)
  /-- or themselves, if the job has no namespace -/
  | bare : (∀ p ∈ imports, p.2 ≠ x) → hasNs x = false → (ns = none ∨ ns = some "") →
      Denotes hasNs ns imports x x

/-- **C56**: import lines. -/
theorem C56_import_line (hasNs : String → Bool) (parts : List String) (rid alias : String) :
    parseImportLine hasNs parts = some (rid, alias) ↔ Imports hasNs parts rid alias := by
  constructor
  · intro h
    unfold parseImportLine at h
    split at h
    · repeat' split at h
      all_goals simp_all
      obtain ⟨rfl, rfl⟩ := h
      exact .plain _ _ (by simp_all) (by simp_all)
    · repeat' split at h
      all_goals simp_all
      obtain ⟨rfl, rfl⟩ := h
      exact .named _ _ _ (by simp_all) (by simp_all)
    · simp at h
  · rintro (⟨ns, id, h1, h2⟩ | ⟨ns, id, alias, h1, h2⟩) <;> simp [parseImportLine, h1, h2]

theorem find_import {imports : List (String × String)} {x : String} {p : String × String}
    (h : imports.find? (fun p => p.2 = x) = some p) :
    p.2 = x ∧ ∃ pre post, imports = pre ++ p :: post ∧ ∀ q ∈ pre, q.2 ≠ x := by
  obtain ⟨h1, pre, post, h2, h3⟩ := List.find?_eq_some_iff_append.1 h
  exact ⟨by simpa using h1, pre, post, h2, fun q hq => by simpa using h3 q hq⟩

/-- **C56**: the ids of the resources of an expression, one for each name, in order, are those the names
denote, when imports are qualified (as those of `parse_imports_stmt` are). -/
theorem C56_resolution (hasNs : String → Bool) (ns : Option String) (imports : List (String × String))
    (himp : ∀ p ∈ imports, hasNs p.1 = true) (a : Ast) (aliases ids : List String)
    (ha : analyze a = .ok aliases) (h : resourceIds hasNs ns imports a = .ok ids) :
    ids.length = aliases.length ∧
      ∀ (i : Nat) (x id : String), aliases[i]? = some x → ids[i]? = some id →
        Denotes hasNs ns imports x id := by
  simp only [resourceIds, ha, Except.ok.injEq] at h
  subst h
  refine ⟨by simp, fun i x id hx hid => ?_⟩
  rw [List.getElem?_map, hx, Option.map_some, Option.some.injEq] at hid
  subst hid
  unfold resolveAlias
  cases hf : imports.find? (fun p => p.2 = x) with
  | some p =>
    obtain ⟨rfl, pre, post, h1, h2⟩ := find_import hf
    have hq : hasNs p.1 = true := himp p (by rw [h1]; simp)
    simp only [qualifyRes, hq, if_true]
    exact .imported pre post p.1 h1 h2 hq
  | none =>
    have hno : ∀ p ∈ imports, p.2 ≠ x := fun p hp => by simpa using List.find?_eq_none.1 hf p hp
    simp only [qualifyRes]
    cases hq : hasNs x with
    | true => exact .qualified hno hq
    | false =>
      cases ns with
      | none => exact .bare hno hq (.inl rfl)
      | some n =>
        by_cases hn : n = ""
        · subst hn; exact .bare hno hq (.inr rfl)
        · simp only [Bool.false_eq_true, if_false, if_neg hn]
          exact .local n hno hq rfl hn

/-- **C56**: what a name denotes is unique. -/
theorem C56_unique (hasNs : String → Bool) (ns : Option String) (imports : List (String × String))
    (x a b : String) (h : Denotes hasNs ns imports x a) (h' : Denotes hasNs ns imports x b) : a = b := by
  have clash : ∀ (pre post : List (String × String)) (rid : String),
      imports = pre ++ (rid, x) :: post → ¬ ∀ p ∈ imports, p.2 ≠ x := by
    intro pre post rid he hall
    exact hall (rid, x) (by rw [he]; simp) rfl
  have find : ∀ (pre post : List (String × String)) (rid : String),
      imports = pre ++ (rid, x) :: post → (∀ p ∈ pre, p.2 ≠ x) →
      imports.find? (fun p => p.2 = x) = some (rid, x) := by
    intro pre post rid he hpre
    rw [List.find?_eq_some_iff_append]
    exact ⟨by simp, pre, post, he, fun q hq => by simpa using hpre q hq⟩
  cases h with
  | imported pre post _ h1 h2 _ =>
    cases h' with
    | imported pre' post' _ h1' h2' _ =>
      have := (find _ _ _ h1 h2).symm.trans (find _ _ _ h1' h2')
      simpa using this
    | qualified h2 => exact absurd h2 (clash _ _ _ h1)
    | «local» _ h2 => exact absurd h2 (clash _ _ _ h1)
    | bare h2 => exact absurd h2 (clash _ _ _ h1)
  | qualified h1 h2 =>
    cases h' with
    | imported pre post _ h1' => exact absurd h1 (clash _ _ _ h1')
    | qualified => rfl
    | «local» _ _ h3 => rw [h2] at h3; cases h3
    | bare => rfl
  | «local» n h1 h2 h3 h4 =>
    cases h' with
    | imported pre post _ h1' => exact absurd h1 (clash _ _ _ h1')
    | qualified _ h3' => rw [h2] at h3'; cases h3'
    | «local» n' _ _ h3' => rw [h3] at h3'; cases h3'; rfl
    | bare _ _ h3' => rcases h3' with h | h <;> rw [h3] at h <;> cases h; exact absurd rfl h4
  | bare h1 h2 h3 =>
    cases h' with
    | imported pre post _ h1' => exact absurd h1 (clash _ _ _ h1')
    | qualified => rfl
    | «local» n _ _ h3' h4 => rcases h3 with h | h <;> rw [h3'] at h <;> cases h; exact absurd rfl h4
    | bare => rfl

/-- **C56**: an imported name denotes the imported resource in every namespace. -/
theorem C56_imported (hasNs : String → Bool) (hns : ∀ a b, hasNs (a ++ "::" ++ b) = true)
    (ns : Option String) (imports : List (String × String)) (pre post : List (String × String))
    (parts : List String) (rid x : String) (hline : parseImportLine hasNs parts = some (rid, x))
    (himp : imports = pre ++ (rid, x) :: post) (hpre : ∀ p ∈ pre, p.2 ≠ x) :
    Denotes hasNs ns imports x rid := by
  refine .imported pre post rid himp hpre ?_
  rw [C56_import_line] at hline
  cases hline <;> exact hns _ _

example : Imports (fun _ => false) ["from", "2013.com.canonical", "import", "package", "as", "pkg"]
    "2013.com.canonical::package" "pkg" := by
  have := Imports.named (hasNs := fun _ => false) "2013.com.canonical" "package" "pkg" rfl rfl
  simpa using this

/-- `pkg.version > 1 and local.x` with an import for `pkg`, in the namespace `me`. -/
example : resourceIds (fun s => s == "ns::package") (some "me") [("ns::package", "pkg")]
    (.boolOp [.compare (.attr (.name "pkg") "version") [.num 1], .attr (.name "local") "x"]) =
      .ok ["ns::package", "me::local"] := by decide +kernel

end Verif.Resource
