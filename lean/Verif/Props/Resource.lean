import Verif.Model.Resource
import Mathlib.Data.List.Forall2

/-!
# C16, C17, C18: requirement expressions and programs
-/

set_option linter.unusedSectionVars false

namespace Verif.Resource

/-! ## C16: what an accepted expression can contain -/

/-- The documented white-list, applied to every node of the tree (resource.py:305-350 in words):
comparisons, boolean connectives, attribute access, names, constants, lists, tuples, and calls of
the four harmless functions on such expressions. -/
inductive Clean : Ast → Prop where
  | name (id) : Clean (.name id)
  | num (n) : Clean (.num n)
  | str (s) : Clean (.str s)
  | attr (v f) : Clean v → Clean (.attr v f)
  | boolOp (vs) : (∀ v ∈ vs, Clean v) → Clean (.boolOp vs)
  | compare (l cs) : Clean l → (∀ v ∈ cs, Clean v) → Clean (.compare l cs)
  | list (vs) : (∀ v ∈ vs, Clean v) → Clean (.list vs)
  | tuple (vs) : (∀ v ∈ vs, Clean v) → Clean (.tuple vs)
  | call (f vs) : f ∈ ["len", "bool", "int", "float"] → (∀ v ∈ vs, Clean v) →
      Clean (.call (.name f) vs)

/-- `Reads a x`: evaluating `a` can read the variable `x`. -/
inductive Reads : Ast → String → Prop where
  | name (id) : Reads (.name id) id
  | attr {v f x} : Reads v x → Reads (.attr v f) x
  | binL {l r x} : Reads l x → Reads (.binOp l r) x
  | binR {l r x} : Reads r x → Reads (.binOp l r) x
  | unary {v x} : Reads v x → Reads (.unaryOp v) x
  | boolOp {vs v x} : v ∈ vs → Reads v x → Reads (.boolOp vs) x
  | compareL {l cs x} : Reads l x → Reads (.compare l cs) x
  | compareR {l cs v x} : v ∈ cs → Reads v x → Reads (.compare l cs) x
  | list {vs v x} : v ∈ vs → Reads v x → Reads (.list vs) x
  | tuple {vs v x} : v ∈ vs → Reads v x → Reads (.tuple vs) x
  | callF {f vs x} : Reads f x → Reads (.call f vs) x
  | callA {f vs v x} : v ∈ vs → Reads v x → Reads (.call f vs) x
  | other {c vs v x} : v ∈ vs → Reads v x → Reads (.other c vs) x

/-- No call with arguments anywhere in the tree. -/
inductive ArgFree : Ast → Prop where
  | name (id) : ArgFree (.name id)
  | num (n) : ArgFree (.num n)
  | str (s) : ArgFree (.str s)
  | attr {v f} : ArgFree v → ArgFree (.attr v f)
  | binOp {l r} : ArgFree l → ArgFree r → ArgFree (.binOp l r)
  | unaryOp {v} : ArgFree v → ArgFree (.unaryOp v)
  | boolOp {vs} : (∀ v ∈ vs, ArgFree v) → ArgFree (.boolOp vs)
  | compare {l cs} : ArgFree l → (∀ v ∈ cs, ArgFree v) → ArgFree (.compare l cs)
  | list {vs} : (∀ v ∈ vs, ArgFree v) → ArgFree (.list vs)
  | tuple {vs} : (∀ v ∈ vs, ArgFree v) → ArgFree (.tuple vs)
  | call {f} : ArgFree f → ArgFree (.call f [])
  | other {c vs} : (∀ v ∈ vs, ArgFree v) → ArgFree (.other c vs)

theorem mem_see {ids : List String} {id x : String} : x ∈ see ids id ↔ x ∈ ids ∨ x = id := by
  unfold see; split
  · constructor
    · exact Or.inl
    · rintro (h | rfl) <;> assumption
  · simp

/-- Shorthand of the proofs below: `visit` on an argument-free tree is sound. -/
def Sound (a : Ast) : Prop :=
  ∀ ids out, ArgFree a → visit a ids = .ok out →
    Clean a ∧ (∀ x ∈ ids, x ∈ out) ∧
    (∀ x, Reads a x → x ∈ out ∨ x ∈ ["len", "bool", "int", "float"])

mutual
theorem visit_sound : ∀ a : Ast, Sound a
  | .name id => by
    intro ids out _ h
    simp only [visit, Except.ok.injEq] at h; subst h
    exact ⟨.name _, fun x hx => mem_see.mpr (.inl hx), fun x hr => by
      cases hr; exact .inl (mem_see.mpr (.inr rfl))⟩
  | .num _ => by
    intro ids out _ h
    simp only [visit, Except.ok.injEq] at h; subst h
    exact ⟨.num _, fun _ h => h, fun x hr => by cases hr⟩
  | .str _ => by
    intro ids out _ h
    simp only [visit, Except.ok.injEq] at h; subst h
    exact ⟨.str _, fun _ h => h, fun x hr => by cases hr⟩
  | .attr v f => by
    intro ids out ha h
    simp only [visit] at h
    cases ha with | attr ha =>
    obtain ⟨h1, h2, h3⟩ := visit_sound v ids out ha h
    exact ⟨.attr _ _ h1, h2, fun x hr => by cases hr with | attr hr => exact h3 x hr⟩
  | .binOp l r => by
    intro ids out _ h
    simp only [visit] at h
    split at h <;> simp at h
  | .unaryOp _ => by intro ids out _ h; simp [visit] at h
  | .boolOp vs => by
    intro ids out ha h
    simp only [visit] at h
    cases ha with | boolOp ha =>
    obtain ⟨h1, h2, h3⟩ := visitList_sound vs ids out ha h
    exact ⟨.boolOp _ h1, h2, fun x hr => by cases hr with | boolOp hm hr => exact h3 _ hm x hr⟩
  | .compare l cs => by
    intro ids out ha h
    simp only [visit] at h
    cases ha with | compare hl hc =>
    split at h
    · simp at h
    · rename_i ids' he
      obtain ⟨h1, h2, h3⟩ := visit_sound l ids ids' hl he
      obtain ⟨k1, k2, k3⟩ := visitList_sound cs ids' out hc h
      refine ⟨.compare _ _ h1 k1, fun x hx => k2 x (h2 x hx), fun x hr => ?_⟩
      cases hr with
      | compareL hr => exact (h3 x hr).imp_left (k2 x)
      | compareR hm hr => exact k3 _ hm x hr
  | .list vs => by
    intro ids out ha h
    simp only [visit] at h
    cases ha with | list ha =>
    obtain ⟨h1, h2, h3⟩ := visitList_sound vs ids out ha h
    exact ⟨.list _ h1, h2, fun x hr => by cases hr with | list hm hr => exact h3 _ hm x hr⟩
  | .tuple vs => by
    intro ids out ha h
    simp only [visit] at h
    cases ha with | tuple ha =>
    obtain ⟨h1, h2, h3⟩ := visitList_sound vs ids out ha h
    exact ⟨.tuple _ h1, h2, fun x hr => by cases hr with | tuple hm hr => exact h3 _ hm x hr⟩
  | .call f args => by
    intro ids out ha h
    cases ha with | call ha =>
    cases f <;> simp only [visit] at h <;> try (simp at h)
    rename_i f
    split at h
    · rename_i hf
      simp only [Except.ok.injEq] at h; subst h
      refine ⟨.call _ _ hf (by simp), fun _ h => h, fun x hr => ?_⟩
      cases hr with
      | callF hr => cases hr; exact .inr hf
      | callA hm _ => simp at hm
    · simp at h
  | .other _ _ => by intro ids out _ h; simp [visit] at h
theorem visitList_sound : ∀ (as : List Ast) (ids out : List String), (∀ a ∈ as, ArgFree a) →
    visitList as ids = .ok out →
    (∀ a ∈ as, Clean a) ∧ (∀ x ∈ ids, x ∈ out) ∧
    (∀ a ∈ as, ∀ x, Reads a x → x ∈ out ∨ x ∈ ["len", "bool", "int", "float"])
  | [] => by
    intro ids out _ h
    simp only [visitList, Except.ok.injEq] at h; subst h
    simp
  | a :: as => by
    intro ids out ha h
    simp only [visitList] at h
    split at h
    · simp at h
    · rename_i ids' he
      obtain ⟨h1, h2, h3⟩ := visit_sound a ids ids' (ha a (by simp)) he
      obtain ⟨k1, k2, k3⟩ := visitList_sound as ids' out (fun b hb => ha b (by simp [hb])) h
      refine ⟨fun b hb => ?_, fun x hx => k2 x (h2 x hx), fun b hb x hr => ?_⟩
      · rcases List.mem_cons.mp hb with rfl | hb
        · exact h1
        · exact k1 b hb
      · rcases List.mem_cons.mp hb with rfl | hb
        · exact (h3 x hr).imp_left (k2 x)
        · exact k3 b hb x hr
end

/-- **C16** (proved part).  An accepted expression in which calls have no arguments is clean in
every node and reports every variable it can read, other than the four functions.  Missing: call
arguments, for which the claim is false, see `C16_violated`. -/
theorem C16_sandbox_partial (a : Ast) (aliases : List String) (ha : ArgFree a)
    (h : analyze a = .ok aliases) :
    Clean a ∧ aliases ≠ [] ∧
    (∀ x, Reads a x → x ∈ aliases ∨ x ∈ ["len", "bool", "int", "float"]) := by
  unfold analyze at h
  split at h <;> simp at h
  rename_i hne hv
  subst h
  obtain ⟨h1, _, h3⟩ := visit_sound a [] _ ha hv
  exact ⟨h1, fun hc => hne hc, h3⟩

/-- Like `Clean`, but nothing is required of the arguments of calls. -/
inductive OuterClean : Ast → Prop where
  | name (id) : OuterClean (.name id)
  | num (n) : OuterClean (.num n)
  | str (s) : OuterClean (.str s)
  | attr (v f) : OuterClean v → OuterClean (.attr v f)
  | boolOp (vs) : (∀ v ∈ vs, OuterClean v) → OuterClean (.boolOp vs)
  | compare (l cs) : OuterClean l → (∀ v ∈ cs, OuterClean v) → OuterClean (.compare l cs)
  | list (vs) : (∀ v ∈ vs, OuterClean v) → OuterClean (.list vs)
  | tuple (vs) : (∀ v ∈ vs, OuterClean v) → OuterClean (.tuple vs)
  | call (f vs) : f ∈ ["len", "bool", "int", "float"] → OuterClean (.call (.name f) vs)

mutual
theorem visit_iff : ∀ (a : Ast) (ids : List String),
    (∃ out, visit a ids = .ok out) ↔ OuterClean a
  | .name _, ids => by simp only [visit]; exact ⟨fun _ => .name _, fun _ => ⟨_, rfl⟩⟩
  | .num _, ids => by simp only [visit]; exact ⟨fun _ => .num _, fun _ => ⟨_, rfl⟩⟩
  | .str _, ids => by simp only [visit]; exact ⟨fun _ => .str _, fun _ => ⟨_, rfl⟩⟩
  | .attr v f, ids => by
    simp only [visit]
    rw [visit_iff v ids]
    exact ⟨fun h => .attr _ _ h, fun h => by cases h; assumption⟩
  | .binOp l r, ids => by
    simp only [visit]
    constructor
    · rintro ⟨out, h⟩; split at h <;> simp at h
    · intro h; cases h
  | .unaryOp _, ids => by
    simp only [visit]
    exact ⟨by simp, fun h => by cases h⟩
  | .boolOp vs, ids => by
    simp only [visit]
    rw [visitList_iff vs ids]
    exact ⟨fun h => .boolOp _ h, fun h => by cases h; assumption⟩
  | .compare l cs, ids => by
    simp only [visit]
    have h1 := visit_iff l ids
    constructor
    · rintro ⟨out, h⟩
      split at h
      · simp at h
      · rename_i ids' he
        exact .compare _ _ (h1.mp ⟨_, he⟩) ((visitList_iff cs ids').mp ⟨_, h⟩)
    · intro h
      cases h with | compare _ _ hl hc =>
      obtain ⟨ids', he⟩ := h1.mpr hl
      rw [he]
      exact (visitList_iff cs ids').mpr hc
  | .list vs, ids => by
    simp only [visit]
    rw [visitList_iff vs ids]
    exact ⟨fun h => .list _ h, fun h => by cases h; assumption⟩
  | .tuple vs, ids => by
    simp only [visit]
    rw [visitList_iff vs ids]
    exact ⟨fun h => .tuple _ h, fun h => by cases h; assumption⟩
  | .call f args, ids => by
    cases f
    case name f =>
     simp only [visit]
     constructor
     · rintro ⟨out, h⟩
       split at h
       · rename_i hf; exact .call _ _ hf
       · simp at h
     · intro h
       cases h with | call _ _ hf =>
       exact ⟨ids, if_pos hf⟩
    all_goals
      simp only [visit]
      constructor
      · rintro ⟨_, h⟩; simp at h
      · intro h; cases h
  | .other _ _, ids => by
    simp only [visit]
    exact ⟨by simp, fun h => by cases h⟩
theorem visitList_iff : ∀ (as : List Ast) (ids : List String),
    (∃ out, visitList as ids = .ok out) ↔ ∀ a ∈ as, OuterClean a
  | [], ids => by simp [visitList]
  | a :: as, ids => by
    simp only [visitList, List.mem_cons, forall_eq_or_imp]
    have h1 := visit_iff a ids
    constructor
    · rintro ⟨out, h⟩
      split at h
      · simp at h
      · rename_i ids' he
        exact ⟨h1.mp ⟨_, he⟩, (visitList_iff as ids').mp ⟨_, h⟩⟩
    · rintro ⟨hl, hc⟩
      obtain ⟨ids', he⟩ := h1.mpr hl
      rw [he]
      exact (visitList_iff as ids').mpr hc
end

/-- **C16** (exact characterisation of what the visitor lets through): every node outside call
arguments is on the white-list; unary and binary operators are always refused. -/
theorem C16_accepts_iff_partial (a : Ast) :
    (∃ aliases, analyze a = .ok aliases ∨ analyze a = .error .noResourcesReferenced) ↔
      OuterClean a := by
  rw [← visit_iff a []]
  unfold analyze
  constructor
  · rintro ⟨al, h⟩
    split at h <;> simp_all
  · rintro ⟨out, h⟩
    rw [h]
    cases out with
    | nil => exact ⟨[], .inr rfl⟩
    | cons x xs => exact ⟨x :: xs, .inl rfl⟩

/-- The tree of `pkg.name == len(__import__('os').system('reboot'))`. -/
def evil : Ast :=
  .compare (.attr (.name "pkg") "name")
    [.call (.name "len")
      [.call (.attr (.call (.name "__import__") [.str "os"]) "system") [.str "reboot"]]]

/-- **C16** is violated: arguments of permitted calls are never inspected, so an expression that
imports a module and runs a command is accepted, and `__import__` is not reported. -/
theorem C16_violated :
    analyze evil = .ok ["pkg"] ∧ ¬ Clean evil ∧ Reads evil "__import__" := by
  refine ⟨by decide +kernel, ?_, ?_⟩
  · intro h
    cases h with | compare _ _ _ h =>
    have := h _ (List.mem_singleton.mpr rfl)
    cases this with | call _ _ _ h =>
    have := h _ (List.mem_singleton.mpr rfl)
    cases this
  · refine .compareR (List.mem_singleton.mpr rfl) (.callA (List.mem_singleton.mpr rfl) ?_)
    exact .callF (.attr (.callF (.name _)))

/-- The hypotheses of the partial theorem are met by `a.x == 'y' and b.z in ['1', '2']`. -/
example : analyze (.boolOp [.compare (.attr (.name "a") "x") [.str "y"],
      .compare (.attr (.name "b") "z") [.list [.str "1", .str "2"]]]) = .ok ["a", "b"] := by
  decide +kernel

example : ArgFree (.boolOp [.compare (.attr (.name "a") "x") [.str "y"], .call (.name "len") []])
    := by
  refine .boolOp fun v hv => ?_
  simp only [List.mem_cons, List.not_mem_nil, or_false] at hv
  rcases hv with rfl | rfl
  · exact .compare (.attr (.name _)) (fun v hv => by
      simp only [List.mem_cons, List.not_mem_nil, or_false] at hv; subst hv; exact .str _)
  · exact .call (.name _)

/-! ## C17: evaluation is existential -/

variable {R I E : Type}

theorem mem_product (lists : List (List R)) (pack : List R) :
    pack ∈ product lists ↔ List.Forall₂ (fun r l => r ∈ l) pack lists := by
  induction lists generalizing pack with
  | nil => simp [product]
  | cons l ls ih =>
    simp only [product, List.mem_flatMap, List.mem_map]
    constructor
    · rintro ⟨r, hr, p, hp, rfl⟩
      exact .cons hr ((ih p).mp hp)
    · intro h
      cases h with | cons hr hp => exact ⟨_, hr, _, (ih _).mpr hp, rfl⟩

theorem evalLoop_iff (lam : List R → Option Bool) (packs : List (List R)) :
    evalLoop lam packs = true ↔ ∃ p ∈ packs, lam p = some true := by
  induction packs with
  | nil => simp [evalLoop]
  | cons p ps ih =>
    simp only [evalLoop, List.mem_cons, exists_eq_or_imp]
    cases h : lam p with
    | none => simp [ih]
    | some b => cases b <;> simp [ih]

/-- **C17** (first half).  The result is true exactly when one resource can be picked from each
list so that the expression evaluates, without raising, to a true value. -/
theorem C17_evaluate_iff (lam : List R → Option Bool) (lists : List (List R)) :
    evaluate lam lists = true ↔
      ∃ pack, List.Forall₂ (fun r l => r ∈ l) pack lists ∧ lam pack = some true := by
  rw [evaluate, evalLoop_iff]
  simp only [mem_product]

theorem forall₂_mono {pack : List R} {ls ls' : List (List R)}
    (h : List.Forall₂ (fun r l => r ∈ l) pack ls) (hs : List.Forall₂ (fun l l' => l ⊆ l') ls ls') :
    List.Forall₂ (fun r l => r ∈ l) pack ls' := by
  induction hs generalizing pack with
  | nil => exact h
  | cons hl _ ih => cases h with | cons hr hp => exact .cons (hl hr) (ih hp)

/-- **C17** (second half).  More resources never turn a satisfied expression into an
unsatisfied one. -/
theorem C17_evaluate_mono (lam : List R → Option Bool) (ls ls' : List (List R))
    (hs : List.Forall₂ (fun l l' => l ⊆ l') ls ls') (h : evaluate lam ls = true) :
    evaluate lam ls' = true := by
  rw [C17_evaluate_iff] at *
  obtain ⟨p, hp, ht⟩ := h
  exact ⟨p, forall₂_mono hp hs, ht⟩

/-- Two lists, one combination raises, one is false, one is true. -/
example : evaluate (fun p => match p with | [1, 3] => none | [2, 4] => some true | _ => some false)
    [[1, 2], [3, 4]] = true := by decide

/-- An empty list of resources satisfies nothing. -/
example : evaluate (fun _ => some true) [[1], ([] : List Nat)] = false := by decide

/-! ## C18: programs -/

variable [DecidableEq I]

/-- The value of an expression on a resource map, in terms of combinations of resources. -/
def Holds (s : ExprSem E I R) (m : List (I × List R)) (e : E) : Prop :=
  ∃ pack, List.Forall₂ (fun r i => ∃ l, m.lookup i = some l ∧ r ∈ l) pack (s.resIds e) ∧
    s.lam e pack = some true

/-- Every resource mentioned by `e` is in the map. -/
def Available (m : List (I × List R)) (s : ExprSem E I R) (e : E) : Prop :=
  ∀ i ∈ s.resIds e, ∃ l, m.lookup i = some l

theorem firstAbsent_none {m : List (I × List R)} {is : List I} :
    firstAbsent m is = none ↔ ∀ i ∈ is, ∃ l, m.lookup i = some l := by
  induction is with
  | nil => simp [firstAbsent]
  | cons i is ih =>
    simp only [firstAbsent, List.mem_cons, forall_eq_or_imp]
    split
    · rename_i h; rw [ih, Option.isSome_iff_exists] at *; simp [h]
    · rename_i h; simp only [Option.isSome_iff_exists] at h; simp [h]

theorem firstAbsent_some {m : List (I × List R)} {is : List I} {i : I}
    (h : firstAbsent m is = some i) : ∃ pre post, is = pre ++ i :: post ∧ m.lookup i = none ∧
      ∀ k ∈ pre, ∃ l, m.lookup k = some l := by
  induction is with
  | nil => simp [firstAbsent] at h
  | cons k is ih =>
    simp only [firstAbsent] at h
    split at h
    · rename_i hk
      obtain ⟨pre, post, rfl, h1, h2⟩ := ih h
      refine ⟨k :: pre, post, rfl, h1, ?_⟩
      simp only [List.mem_cons, forall_eq_or_imp]
      exact ⟨Option.isSome_iff_exists.mp hk, h2⟩
    · rename_i hk
      simp only [Option.some.injEq] at h; subst h
      exact ⟨[], is, rfl, Option.not_isSome_iff_eq_none.mp hk, by simp⟩

theorem checkAvail_none {s : ExprSem E I R} {m : List (I × List R)} {es : List E} :
    checkAvail s m es = none ↔ ∀ e ∈ es, Available m s e := by
  induction es with
  | nil => simp [checkAvail]
  | cons e es ih =>
    simp only [checkAvail, List.mem_cons, forall_eq_or_imp]
    split
    · rename_i i h
      have : ¬ Available m s e := by
        intro hc
        have := firstAbsent_none.mpr hc
        simp [this] at h
      simp [this]
    · rename_i h
      have : Available m s e := firstAbsent_none.mp h
      simp [this, ih]

theorem checkAvail_some {s : ExprSem E I R} {m : List (I × List R)} {es : List E} {e : E} {i : I}
    (h : checkAvail s m es = some (e, i)) : ∃ pre post, es = pre ++ e :: post ∧ i ∈ s.resIds e ∧
      m.lookup i = none ∧ ∀ k ∈ pre, Available m s k := by
  induction es with
  | nil => simp [checkAvail] at h
  | cons k es ih =>
    simp only [checkAvail] at h
    split at h
    · rename_i j hj
      simp only [Option.some.injEq, Prod.mk.injEq] at h
      obtain ⟨rfl, rfl⟩ := h
      obtain ⟨pre, post, heq, h1, _⟩ := firstAbsent_some hj
      exact ⟨[], es, rfl, by simp [heq], h1, by simp⟩
    · rename_i hk
      obtain ⟨pre, post, rfl, h1, h2, h3⟩ := ih h
      refine ⟨k :: pre, post, rfl, h1, h2, ?_⟩
      simp only [List.mem_cons, forall_eq_or_imp]
      exact ⟨firstAbsent_none.mp hk, h3⟩

theorem forall₂_lookup {m : List (I × List R)} {is : List I}
    (h : ∀ i ∈ is, ∃ l, m.lookup i = some l) (pack : List R) :
    List.Forall₂ (fun r l => r ∈ l) pack (is.map fun i => (m.lookup i).getD []) ↔
    List.Forall₂ (fun r i => ∃ l, m.lookup i = some l ∧ r ∈ l) pack is := by
  induction is generalizing pack with
  | nil => simp
  | cons i is ih =>
    simp only [List.mem_cons, forall_eq_or_imp] at h
    obtain ⟨⟨l, hl⟩, h⟩ := h
    cases pack with
    | nil => simp
    | cons r p => simp only [List.map_cons, List.forall₂_cons, ih h, hl]; simp

theorem eval_holds {s : ExprSem E I R} {m : List (I × List R)} {e : E} (h : Available m s e) :
    evaluate (s.lam e) ((s.resIds e).map fun i => (m.lookup i).getD []) = true ↔ Holds s m e := by
  rw [C17_evaluate_iff]
  constructor
  · rintro ⟨p, hp, ht⟩; exact ⟨p, (forall₂_lookup h p).mp hp, ht⟩
  · rintro ⟨p, hp, ht⟩; exact ⟨p, (forall₂_lookup h p).mpr hp, ht⟩

theorem evalAll_spec {s : ExprSem E I R} {m : List (I × List R)} {es : List E}
    (ha : ∀ e ∈ es, Available m s e) :
    (evalAll s m es = .ok ∧ ∀ e ∈ es, Holds s m e) ∨
    (∃ pre e post, es = pre ++ e :: post ∧ evalAll s m es = .failed e ∧ ¬ Holds s m e ∧
      ∀ k ∈ pre, Holds s m k) := by
  induction es with
  | nil => left; simp [evalAll]
  | cons e es ih =>
    have hae := ha e (by simp)
    simp only [evalAll]
    by_cases hh : Holds s m e
    · rw [if_pos ((eval_holds hae).mpr hh)]
      rcases ih (fun k hk => ha k (by simp [hk])) with ⟨h1, h2⟩ | ⟨pre, k, post, rfl, h1, h2, h3⟩
      · left
        refine ⟨h1, ?_⟩
        simp only [List.mem_cons, forall_eq_or_imp]
        exact ⟨hh, h2⟩
      · right
        refine ⟨e :: pre, k, post, rfl, h1, h2, ?_⟩
        simp only [List.mem_cons, forall_eq_or_imp]
        exact ⟨hh, h3⟩
    · rw [if_neg (fun hc => hh ((eval_holds hae).mp hc))]
      exact .inr ⟨[], e, es, rfl, rfl, hh, by simp⟩

/-- **C18**.  A program succeeds exactly when everything it mentions is present and every
expression holds; it reports an unevaluable expression exactly when some resource is absent, naming
an expression and an absent resource of it; otherwise it names the first expression that does not
hold. -/
theorem C18_program (s : ExprSem E I R) (m : List (I × List R)) (es : List E) :
    (evaluateOrRaise s m es = .ok ↔ (∀ e ∈ es, Available m s e) ∧ ∀ e ∈ es, Holds s m e) ∧
    ((∃ e i, evaluateOrRaise s m es = .cannotEvaluate e i) ↔ ∃ e ∈ es, ¬ Available m s e) ∧
    (∀ e i, evaluateOrRaise s m es = .cannotEvaluate e i →
      e ∈ es ∧ i ∈ s.resIds e ∧ m.lookup i = none) ∧
    (∀ e, evaluateOrRaise s m es = .failed e →
      (∀ e ∈ es, Available m s e) ∧
      ∃ pre post, es = pre ++ e :: post ∧ ¬ Holds s m e ∧ ∀ k ∈ pre, Holds s m k) := by
  unfold evaluateOrRaise
  cases hc : checkAvail s m es with
  | some p =>
    obtain ⟨e, i⟩ := p
    obtain ⟨pre, post, heq, h1, h2, h3⟩ := checkAvail_some hc
    have hna : ¬ Available m s e := fun ha => by
      obtain ⟨l, hl⟩ := ha i h1; simp [h2] at hl
    have hmem : e ∈ es := by rw [heq]; simp
    refine ⟨⟨by simp, fun h => absurd (h.1 e hmem) hna⟩,
      ⟨fun _ => ⟨e, hmem, hna⟩, fun _ => ⟨e, i, rfl⟩⟩, ?_, by simp⟩
    intro e' i' h
    simp only [ProgOutcome.cannotEvaluate.injEq] at h
    obtain ⟨rfl, rfl⟩ := h
    exact ⟨hmem, h1, h2⟩
  | none =>
    have ha := checkAvail_none.mp hc
    simp only
    rcases evalAll_spec ha with ⟨h1, h2⟩ | ⟨pre, e, post, heq, h1, h2, h3⟩
    · rw [h1]
      refine ⟨⟨fun _ => ⟨ha, h2⟩, fun _ => rfl⟩, ⟨by simp, ?_⟩, by simp, by simp⟩
      rintro ⟨e, he, hn⟩; exact absurd (ha e he) hn
    · rw [h1]
      have hmem : e ∈ es := by rw [heq]; simp
      refine ⟨⟨by simp, fun h => absurd (h.2 e hmem) h2⟩, ⟨by simp, ?_⟩, by simp, ?_⟩
      · rintro ⟨e, he, hn⟩; exact absurd (ha e he) hn
      · intro e' h
        simp only [ProgOutcome.failed.injEq] at h
        subst h
        exact ⟨ha, pre, post, heq, h2, h3⟩

/-- A toy expression language for the examples: `(resource ids, wanted values)`. -/
def exSem : ExprSem (List Nat × List Nat) Nat Nat := ⟨Prod.fst, fun e p => some (p = e.2)⟩

example : evaluateOrRaise exSem [(1, [10, 11]), (2, [20])] [([1], [11]), ([1, 2], [10, 20])] = .ok
    := by decide
example : evaluateOrRaise exSem [(1, [10, 11])] [([1], [99]), ([1, 2], [10, 20])] =
    .cannotEvaluate ([1, 2], [10, 20]) 2 := by decide
example : evaluateOrRaise exSem [(1, [10, 11])] [([1], [10]), ([1], [99])] = .failed ([1], [99])
    := by decide

end Verif.Resource
