import Verif.Model.Dot
import Verif.Lemmas.Sort
import Mathlib.Data.List.Forall2

/-! # Property C135: the dependency graph that is drawn is the dependency graph -/

namespace Verif.Dot

/-! ## Specification: a reader for files in the DOT language

Of the language as far as it is needed: one statement on a line, quoted names, attributes in brackets. Within quotes `\"` is a
quote and a `\` in front of anything else is kept. -/

/-- Statements. -/
inductive Stmt
  | node (a : Str) (attrs : List (Str × Str))
  | edge (a b : Str) (attrs : List (Str × Str))
deriving DecidableEq, Repr

/-- The lines of a text in which each line has an end. -/
def lines : Str → Option (List Str)
  | [] => some []
  | c :: s =>
    if c = '\n' then (lines s).map ([] :: ·)
    else match lines s with
      | some (l :: ls) => some ((c :: l) :: ls)
      | _ => none

/-- The rest of a quoted text, and what is after it. -/
def unquote : Str → Option (Str × Str)
  | [] => none
  | '"' :: s => some ([], s)
  | '\\' :: '"' :: s => (unquote s).map fun p => ('"' :: p.1, p.2)
  | c :: s => (unquote s).map fun p => (c :: p.1, p.2)

/-- A value of an attribute: quoted, or up to a comma or a bracket. -/
def value (s : Str) : Option (Str × Str) :=
  match s with
  | '"' :: s => unquote s
  | s => some (s.takeWhile (fun c => c ≠ ',' ∧ c ≠ ']'), s.dropWhile fun c => c ≠ ',' ∧ c ≠ ']')

/-- The attributes, after the opening bracket, up to the end of the statement. -/
def attrs : Nat → Str → Option (List (Str × Str))
  | 0, _ => none
  | fuel + 1, s =>
    if s = "];".toList then some []
    else
      match s.dropWhile (· ≠ '=') with
      | '=' :: r =>
        match value r with
        | some (v, ',' :: ' ' :: t) => (attrs fuel t).map ((s.takeWhile (· ≠ '='), v) :: ·)
        | some (v, ',' :: t) => (attrs fuel t).map ((s.takeWhile (· ≠ '='), v) :: ·)
        | some (v, t) => (attrs fuel t).map ((s.takeWhile (· ≠ '='), v) :: ·)
        | none => none
      | _ => none

/-- What follows the names in a statement. -/
def tail (s : Str) : Option (List (Str × Str)) :=
  match s with
  | [';'] => some []
  | ' ' :: '[' :: r => attrs (r.length + 1) r
  | _ => none

/-- One statement. -/
def stmt (s : Str) : Option Stmt :=
  match s with
  | '\t' :: '"' :: r =>
    match unquote r with
    | none => none
    | some (a, ' ' :: '-' :: '>' :: ' ' :: '"' :: t) =>
      match unquote t with
      | none => none
      | some (b, u) => (tail u).map (.edge a b)
    | some (a, t) => (tail t).map (.node a)
  | _ => none

/-- A graph: two lines at the beginning, the statements, and a bracket at the end. -/
def graph (text : Str) : Option (List Stmt) :=
  match lines text with
  | some (h :: d :: ls) =>
    if h = "digraph dependency_graph {".toList ∧ d = "\tnode [shape=box];".toList ∧ ls.getLast? = some "}".toList then
      ls.dropLast.mapM stmt
    else none
  | _ => none

/-- Nothing in the text has a meaning of its own in quotes. -/
def Plain (s : Str) : Prop := '"' ∉ s ∧ '\\' ∉ s ∧ '\n' ∉ s

instance (s : Str) : Decidable (Plain s) := by unfold Plain; infer_instance

/-- All names of a job are plain, and its requirements are on one line, without backslashes. -/
structure PlainJob (j : Job) : Prop where
  id : Plain j.id
  direct : ∀ d ∈ j.direct, Plain d
  after : ∀ d ∈ j.after, Plain d
  res : ∀ es, j.prog = some (some es) → ∀ e ∈ es, ('\\' ∉ e.text ∧ '\n' ∉ e.text) ∧ ∀ r ∈ e.ids, Plain r

/-- The colour and shape of a job, by its plugin. -/
def look (plugin : Str) : Option (List (Str × Str)) :=
  if plugin = "resource".toList then some [("shape".toList, "ellipse".toList), ("color".toList, "blue".toList)]
  else if plugin = "attachment".toList then some [("color".toList, "green".toList)]
  else if plugin = "shell".toList then some []
  else if plugin ∈ ["manual".toList, "user-verify".toList, "user-interact".toList] then some [("color".toList, "orange".toList)]
  else none

/-- What a statement in the graph of the jobs may be. -/
inductive Drawn (res : Bool) (jobs : List Job) : Stmt → Prop
  | job {j : Job} {l : List (Str × Str)} : j ∈ jobs → look j.plugin = some l → Drawn res jobs (.node j.id l)
  | direct {j : Job} {d : Str} : j ∈ jobs → d ∈ j.direct → Drawn res jobs (.edge j.id d [])
  | after {j : Job} {d : Str} : j ∈ jobs → d ∈ j.after →
      Drawn res jobs (.edge j.id d [("style".toList, "dotted".toList)])
  | resource {j : Job} {es : List Expr} {e : Expr} {r : Str} : res = true → j ∈ jobs → j.prog = some (some es) →
      e ∈ es → r ∈ e.ids → Drawn res jobs (.node r [("shape".toList, "ellipse".toList), ("color".toList, "blue".toList)])
  | requires {j : Job} {es : List Expr} {e : Expr} {r : Str} : res = true → j ∈ jobs → j.prog = some (some es) →
      e ∈ es → r ∈ e.ids → Drawn res jobs (.edge j.id r [("style".toList, "dashed".toList),
        ("label".toList, e.text.map fun c => if c = '"' then '\'' else c)])

/-! ## Lemmas -/

theorem unquote_plain : ∀ (s r : Str), '"' ∉ s → '\\' ∉ s → unquote (s ++ '"' :: r) = some (s, r)
  | [], r, _, _ => by simp [unquote]
  | c :: s, r, h1, h2 => by
    simp only [List.mem_cons, not_or] at h1 h2
    have ih := unquote_plain s r h1.2 h2.2
    rw [List.cons_append, unquote]
    · rw [ih]; rfl
    · rintro rfl; exact h1.1 rfl
    · rintro t rfl; exact absurd rfl h2.1

theorem lines_one (l : Str) (h : '\n' ∉ l) (s : Str) {ls : List Str} (hs : lines s = some ls) :
    lines (l ++ '\n' :: s) = some (l :: ls) := by
  induction l with
  | nil => simp [lines, hs]
  | cons c l ih =>
    simp only [List.mem_cons, not_or] at h
    simp only [List.cons_append, lines, if_neg (Ne.symm h.1), ih h.2]

theorem lines_written : ∀ (ls : List Str), (∀ l ∈ ls, '\n' ∉ l) → lines (written ls) = some ls
  | [], _ => rfl
  | l :: ls, h => by
    have ih := lines_written ls fun x hx => h x (by simp [hx])
    simp only [written, List.flatMap_cons, List.append_assoc] at ih ⊢
    exact lines_one l (h l (by simp)) _ ih

theorem stmt_node {a : Str} (ha : Plain a) {t : Str} {l : List (Str × Str)} (ht : tail t = some l)
    (hn : ∀ u, t ≠ ' ' :: '-' :: '>' :: ' ' :: '"' :: u) : stmt (['\t'] ++ quoted a ++ t) = some (.node a l) := by
  have : ['\t'] ++ quoted a ++ t = '\t' :: '"' :: (a ++ '"' :: t) := by simp [quoted]
  rw [this, stmt, unquote_plain a t ha.1 ha.2.1]
  simp only [ht, Option.map_some]

theorem stmt_edge {a b : Str} (ha : Plain a) (hb : Plain b) {t : Str} {l : List (Str × Str)} (ht : tail t = some l) :
    stmt (['\t'] ++ quoted a ++ " -> ".toList ++ quoted b ++ t) = some (.edge a b l) := by
  have : ['\t'] ++ quoted a ++ " -> ".toList ++ quoted b ++ t =
      '\t' :: '"' :: (a ++ '"' :: (' ' :: '-' :: '>' :: ' ' :: '"' :: (b ++ '"' :: t))) := by simp [quoted]
  rw [this, stmt, unquote_plain a _ ha.1 ha.2.1]
  simp only
  rw [unquote_plain b _ hb.1 hb.2.1]
  simp only [ht, Option.map_some]

theorem tail_blue : tail " [shape=ellipse,color=blue];".toList =
    some [("shape".toList, "ellipse".toList), ("color".toList, "blue".toList)] := by decide +kernel
theorem tail_green : tail " [color=green];".toList = some [("color".toList, "green".toList)] := by decide +kernel
theorem tail_none : tail " [];".toList = some [] := by decide +kernel
theorem tail_orange : tail " [color=orange];".toList = some [("color".toList, "orange".toList)] := by decide +kernel
theorem tail_dotted : tail " [style=dotted];".toList = some [("style".toList, "dotted".toList)] := by decide +kernel

theorem tail_label (s : Str) (h1 : '"' ∉ s) (h2 : '\\' ∉ s) :
    tail (" [style=dashed, label=".toList ++ quoted s ++ "];".toList) =
      some [("style".toList, "dashed".toList), ("label".toList, s)] := by
  have e : " [style=dashed, label=".toList ++ quoted s ++ "];".toList =
      ' ' :: '[' :: ("style=dashed, label=".toList ++ '"' :: (s ++ '"' :: "];".toList)) := by simp [quoted]
  have hl : ∀ n, attrs (n + 2) ("label=".toList ++ '"' :: (s ++ '"' :: "];".toList)) = some [("label".toList, s)] := by
    intro n
    have hu := unquote_plain s "];".toList h1 h2
    simp only [String.reduceToList, List.cons_append, List.nil_append] at hu ⊢
    rw [attrs]
    simp [value, hu, attrs]
  have hl' := hl
  have hlen : ∃ n, ("style=dashed, label=".toList ++ '"' :: (s ++ '"' :: "];".toList)).length + 1 = n + 3 := ⟨_, rfl⟩
  obtain ⟨n, hn⟩ := hlen
  rw [e, tail, hn]
  simp only [String.reduceToList, List.cons_append, List.nil_append] at hl ⊢
  rw [attrs]
  simp [value, hl]

theorem singled_plain (s : Str) (h : '\\' ∉ s ∧ '\n' ∉ s) : Plain (singled s) := by
  simp only [Plain, singled, List.mem_map, not_exists, not_and]
  refine ⟨?_, ?_, ?_⟩
  · intro c hc
    split
    · decide
    · rename_i hne; exact hne
  · intro c hc
    split
    · decide
    · rintro rfl; exact h.1 hc
  · intro c hc
    split
    · decide
    · rintro rfl; exact h.2 hc

/-- The lines of a job are statements. -/
def Reads (ls : List Str) (ss : List Stmt) : Prop := List.Forall₂ (fun l s => '\n' ∉ l ∧ stmt l = some s) ls ss

theorem reads_append {l1 l2 : List Str} {s1 s2 : List Stmt} (h1 : Reads l1 s1) (h2 : Reads l2 s2) :
    Reads (l1 ++ l2) (s1 ++ s2) := by
  induction h1 with
  | nil => exact h2
  | cons h _ ih => exact .cons h ih

theorem reads_flatMap {α : Type} {f : α → List Str} {g : α → List Stmt} : ∀ {l : List α}, (∀ x ∈ l, Reads (f x) (g x)) →
    Reads (l.flatMap f) (l.flatMap g)
  | [], _ => .nil
  | x :: l, h => by
    simp only [List.flatMap_cons]
    exact reads_append (h x (by simp)) (reads_flatMap fun y hy => h y (by simp [hy]))

theorem reads_map {α : Type} {f : α → Str} {g : α → Stmt} {l : List α}
    (h : ∀ x ∈ l, '\n' ∉ f x ∧ stmt (f x) = some (g x)) : Reads (l.map f) (l.map g) := by
  induction l with
  | nil => exact .nil
  | cons x l ih => exact .cons (h x (by simp)) (ih fun y hy => h y (by simp [hy]))

/-- The statement about the job itself. -/
def nodeStmts (j : Job) : List Stmt :=
  match look j.plugin with
  | some l => [.node j.id l]
  | none => []

/-- The statements about a requirement. -/
def exprStmts (id : Str) (e : Expr) : List Stmt :=
  e.ids.flatMap fun r => [.node r [("shape".toList, "ellipse".toList), ("color".toList, "blue".toList)],
    .edge id r [("style".toList, "dashed".toList), ("label".toList, singled e.text)]]

/-- The statements about a job. -/
def jobStmts (res : Bool) (j : Job) : List Stmt :=
  nodeStmts j ++ j.direct.map (fun d => .edge j.id d []) ++
    j.after.map (fun d => .edge j.id d [("style".toList, "dotted".toList)]) ++
    (match j.prog with
      | some (some es) => if res then es.flatMap (exprStmts j.id) else []
      | _ => [])

theorem nl_node {a t : Str} (ha : Plain a) (ht : '\n' ∉ t) : '\n' ∉ ['\t'] ++ quoted a ++ t := by
  simp only [quoted, List.mem_append, List.mem_cons, List.not_mem_nil, or_false, not_or]
  exact ⟨⟨by decide, ⟨by decide, ha.2.2⟩, by decide⟩, ht⟩

theorem nl_edge {a b t : Str} (ha : Plain a) (hb : Plain b) (ht : '\n' ∉ t) :
    '\n' ∉ ['\t'] ++ quoted a ++ " -> ".toList ++ quoted b ++ t := by
  rw [List.append_assoc, List.append_assoc]
  refine nl_node ha ?_
  simp only [quoted, List.mem_append, List.mem_cons, List.not_mem_nil, or_false, not_or]
  exact ⟨by decide, ⟨⟨by decide, hb.2.2⟩, by decide⟩, ht⟩

theorem reads_node (j : Job) (h : Plain j.id) : Reads (nodeLines j) (nodeStmts j) := by
  unfold nodeLines nodeStmts look
  have one : ∀ {t : Str} {l : List (Str × Str)}, tail t = some l → '\n' ∉ t → (∀ u, t ≠ ' ' :: '-' :: '>' :: ' ' :: '"' :: u) →
      Reads [['\t'] ++ quoted j.id ++ t] [.node j.id l] := fun h1 h2 h3 =>
    .cons ⟨nl_node h h2, stmt_node h h1 h3⟩ .nil
  split
  · exact one tail_blue (by decide) (by intro u; simp)
  split
  · exact one tail_green (by decide) (by intro u; simp)
  split
  · exact one tail_none (by decide) (by intro u; simp)
  split
  · next h4 =>
    rw [if_pos (by simpa using h4)]
    exact one tail_orange (by decide) (by intro u; simp)
  · next h4 =>
    rw [if_neg (by simpa using h4)]
    exact .nil

theorem reads_expr (id : Str) (h : Plain id) (e : Expr) (he : ('\\' ∉ e.text ∧ '\n' ∉ e.text) ∧ ∀ r ∈ e.ids, Plain r) :
    Reads (exprLines id e) (exprStmts id e) := by
  refine reads_flatMap fun r hr => ?_
  have hs := singled_plain e.text he.1
  refine .cons ⟨nl_node (he.2 r hr) (by decide), stmt_node (he.2 r hr) tail_blue (by intro u; simp)⟩ (.cons ?_ .nil)
  have ht := tail_label _ hs.1 hs.2.1
  have hn : '\n' ∉ " [style=dashed, label=".toList ++ quoted (singled e.text) ++ "];".toList := by
    simp only [quoted, List.mem_append, List.mem_cons, List.not_mem_nil, or_false, not_or]
    exact ⟨⟨by decide, ⟨by decide, hs.2.2⟩, by decide⟩, by decide⟩
  have := stmt_edge h (he.2 r hr) ht
  have hn' := nl_edge h (he.2 r hr) hn
  simp only [List.append_assoc] at this hn' ⊢
  exact ⟨hn', this⟩

theorem reads_job (res : Bool) (j : Job) (h : PlainJob j) : Reads (jobLines res j).1 (jobStmts res j) := by
  have own := reads_append (reads_append (reads_node j h.id)
    (reads_map (f := fun d => ['\t'] ++ quoted j.id ++ " -> ".toList ++ quoted d ++ [';']) (g := fun d => .edge j.id d [])
      (l := j.direct) fun d hd => ⟨nl_edge h.id (h.direct d hd) (by decide), stmt_edge h.id (h.direct d hd) rfl⟩))
    (reads_map (f := fun d => ['\t'] ++ quoted j.id ++ " -> ".toList ++ quoted d ++ " [style=dotted];".toList)
      (g := fun d => .edge j.id d [("style".toList, "dotted".toList)])
      (l := j.after) fun d hd => ⟨nl_edge h.id (h.after d hd) (by decide), stmt_edge h.id (h.after d hd) tail_dotted⟩)
  unfold jobLines jobStmts
  rcases hp : j.prog with _ | _ | es
  · simpa only [List.append_nil] using own
  · simpa only [List.append_nil] using own
  · cases res with
    | false => simpa only [Bool.false_eq_true, if_false, List.append_nil] using own
    | true =>
      simp only [if_true]
      exact reads_append own (reads_flatMap fun e he => reads_expr j.id h.id e (h.res es hp e he))

theorem reads_loop (res : Bool) : ∀ (jobs : List Job), (∀ j ∈ jobs, PlainJob j) → (∀ j ∈ jobs, j.prog ≠ none) →
    Reads (loop res jobs).1 (jobs.flatMap (jobStmts res)) ∧ (loop res jobs).2 = false
  | [], _, _ => ⟨.nil, rfl⟩
  | j :: js, h, hp => by
    have h1 := reads_job res j (h j (by simp))
    obtain ⟨h2, h3⟩ := reads_loop res js (fun x hx => h x (by simp [hx])) fun x hx => hp x (by simp [hx])
    have hr : (jobLines res j).2 = false := by
      unfold jobLines
      rcases hq : j.prog with _ | _ | es
      · exact absurd hq (hp j (by simp))
      · rfl
      · rfl
    simp only [loop, List.flatMap_cons]
    generalize jobLines res j = x at h1 hr
    obtain ⟨l, b⟩ := x
    simp only at hr
    subst hr
    exact ⟨reads_append h1 h2, h3⟩

theorem mapM_reads {ls : List Str} {ss : List Stmt} (h : Reads ls ss) : ls.mapM stmt = some ss := by
  induction h with
  | nil => rfl
  | cons h _ ih => simp [List.mapM_cons, h.2, ih]

theorem nl_reads {ls : List Str} {ss : List Stmt} (h : Reads ls ss) : ∀ l ∈ ls, '\n' ∉ l := by
  induction h with
  | nil => simp
  | cons h _ ih =>
    intro l hl
    rcases List.mem_cons.mp hl with rfl | hl
    · exact h.1
    · exact ih l hl

theorem drawn_iff (res : Bool) (jobs : List Job) (s : Stmt) : s ∈ jobs.flatMap (jobStmts res) ↔ Drawn res jobs s := by
  constructor
  · intro h
    obtain ⟨j, hj, hs⟩ := List.mem_flatMap.mp h
    simp only [jobStmts, List.mem_append, List.mem_map] at hs
    rcases hs with ((hs | ⟨d, hd, rfl⟩) | ⟨d, hd, rfl⟩) | hs
    · unfold nodeStmts at hs
      cases hl : look j.plugin with
      | none => simp [hl] at hs
      | some l =>
        simp only [hl, List.mem_singleton] at hs
        subst hs
        exact .job hj hl
    · exact .direct hj hd
    · exact .after hj hd
    · rcases hp : j.prog with _ | _ | es
      · simp [hp] at hs
      · simp [hp] at hs
      · cases res with
        | false => simp [hp] at hs
        | true =>
          simp only [hp, if_true, List.mem_flatMap, exprStmts, List.mem_cons, List.not_mem_nil, or_false] at hs
          obtain ⟨e, he, r, hr, rfl | rfl⟩ := hs
          · exact .resource rfl hj hp he hr
          · exact .requires rfl hj hp he hr
  · intro h
    cases h with
    | @job j l hj hl =>
      refine List.mem_flatMap.mpr ⟨j, hj, ?_⟩
      simp [jobStmts, nodeStmts, hl]
    | @direct j d hj hd =>
      refine List.mem_flatMap.mpr ⟨j, hj, ?_⟩
      simp only [jobStmts, List.mem_append, List.mem_map]
      exact .inl (.inl (.inr ⟨d, hd, rfl⟩))
    | @after j d hj hd =>
      refine List.mem_flatMap.mpr ⟨j, hj, ?_⟩
      simp only [jobStmts, List.mem_append, List.mem_map]
      exact .inl (.inr ⟨d, hd, rfl⟩)
    | @resource j es e r hres hj hp he hr =>
      refine List.mem_flatMap.mpr ⟨j, hj, ?_⟩
      simp only [jobStmts, List.mem_append, hp, hres, if_true, List.mem_flatMap, exprStmts, List.mem_cons, List.not_mem_nil,
        or_false]
      exact .inr ⟨e, he, r, hr, .inl rfl⟩
    | @requires j es e r hres hj hp he hr =>
      refine List.mem_flatMap.mpr ⟨j, hj, ?_⟩
      simp only [jobStmts, List.mem_append, hp, hres, if_true, List.mem_flatMap, exprStmts, List.mem_cons, List.not_mem_nil,
        or_false]
      exact .inr ⟨e, he, r, hr, .inr rfl⟩

/-! ## Property theorems -/

/-- **C135**, the graph: what `plainbox dev special --dot` writes is read as a graph that has exactly the jobs, dependencies and
(if asked for) requirements of the chosen jobs, if all names are plain and every requirement program can be read. Missing: jobs
of other plugins have no statement of their own (`C135_plugin_violated`), and names with quotes break the file. -/
theorem C135_graph_partial (res : Bool) (jobs : List Job) (h : ∀ j ∈ jobs, PlainJob j) (hp : ∀ j ∈ jobs, j.prog ≠ none) :
    (dotGraph res jobs).2 = false ∧
    ∃ ss, graph (written (dotGraph res jobs).1) = some ss ∧ ∀ s, s ∈ ss ↔ Drawn res jobs s := by
  obtain ⟨h1, h2⟩ := reads_loop res jobs h hp
  unfold dotGraph
  generalize loop res jobs = x at h1 h2
  obtain ⟨l, b⟩ := x
  simp only at h1 h2
  subst h2
  refine ⟨rfl, _, ?_, fun s => drawn_iff res jobs s⟩
  have hn : ∀ x ∈ "digraph dependency_graph {".toList :: "\tnode [shape=box];".toList :: l ++ ["}".toList], '\n' ∉ x := by
    intro x hx
    simp only [List.cons_append, List.mem_cons, List.mem_append, List.not_mem_nil, or_false] at hx
    rcases hx with rfl | rfl | hx | rfl
    · decide
    · decide
    · exact nl_reads h1 x hx
    · decide
  have hl := lines_written _ hn
  rw [graph, hl]
  simp only [List.cons_append, List.getLast?_append, List.getLast?_singleton, Option.some_or, and_self, if_true,
    List.dropLast_concat]
  exact mapM_reads h1

theorem loop_raises (res : Bool) : ∀ (jobs : List Job), (loop res jobs).2 = true ↔ ∃ j ∈ jobs, j.prog = none
  | [] => by simp [loop]
  | j :: js => by
    have ih := loop_raises res js
    have hr : (jobLines res j).2 = true ↔ j.prog = none := by
      unfold jobLines
      rcases hq : j.prog with _ | _ | es <;> simp
    simp only [loop, List.mem_cons, exists_eq_or_imp]
    rw [← hr, ← ih]
    rcases jobLines res j with ⟨l, _ | _⟩ <;> simp

/-- **C135**, exceptions: there is one exactly if the requirement program of some job cannot be read; the same
jobs make the list of requirements fail. -/
theorem C135_raises (res : Bool) (jobs : List Job) :
    ((dotGraph res jobs).2 = true ↔ ∃ j ∈ jobs, j.prog = none) ∧ (exprList jobs = none ↔ ∃ j ∈ jobs, j.prog = none) := by
  constructor
  · rw [← loop_raises res jobs]
    unfold dotGraph
    rcases loop res jobs with ⟨l, _ | _⟩ <;> simp
  · simp only [exprList, Option.map_eq_none_iff]
    induction jobs with
    | nil => simp
    | cons j js ih =>
      simp only [List.mapM_cons, List.mem_cons, exists_eq_or_imp, ← ih]
      cases hj : j.prog with
      | none => simp [exprTexts, hj]
      | some p => cases hm : js.mapM exprTexts <;> simp [exprTexts, hj]

/-- **C135**, exceptions: the output ends with the first job whose requirement program cannot be read; the jobs
after it do not matter. -/
theorem C135_stops (res : Bool) (a : List Job) (j : Job) (b : List Job) (hj : j.prog = none) :
    dotGraph res (a ++ j :: b) = dotGraph res (a ++ [j]) := by
  have hl : (jobLines res j).2 = true := by unfold jobLines; rw [hj]
  have : loop res (a ++ j :: b) = loop res (a ++ [j]) := by
    induction a with
    | nil =>
      simp only [List.nil_append, loop]
      rcases h : jobLines res j with ⟨l, _ | _⟩
      · rw [h] at hl; cases hl
      · rfl
    | cons x a ih => simp only [List.cons_append, loop, ih]
  unfold dotGraph
  rw [this]

/-- **C135**, requirements: the list has exactly the texts of the requirements of the chosen jobs, each of them once, in order. -/
theorem C135_requirements (jobs : List Job) (l : List Str) (h : exprList jobs = some l) :
    (∀ t, t ∈ l ↔ ∃ j ∈ jobs, ∃ es, j.prog = some (some es) ∧ ∃ e ∈ es, e.text = t) ∧
    l.Pairwise (fun a b => Sort.strLe a b = true ∧ a ≠ b) := by
  simp only [exprList, Option.map_eq_some_iff] at h
  obtain ⟨ll, hll, rfl⟩ := h
  have hperm := Sort.sortBy_perm (le := Sort.strLe) ll.flatten.dedup
  constructor
  · intro t
    rw [hperm.mem_iff, List.mem_dedup]
    clear hperm
    induction jobs generalizing ll with
    | nil =>
      simp only [List.mapM_nil, Option.pure_def, Option.some.injEq] at hll
      subst hll
      simp
    | cons j js ih =>
      simp only [List.mapM_cons, Option.pure_def, Option.bind_eq_bind, Option.bind_eq_some_iff, Option.some.injEq] at hll
      obtain ⟨x, hx, ys, hys, rfl⟩ := hll
      simp only [List.flatten_cons, List.mem_append, ih ys hys, List.mem_cons, exists_eq_or_imp]
      apply or_congr _ Iff.rfl
      simp only [exprTexts, Option.map_eq_some_iff] at hx
      obtain ⟨p, hp, rfl⟩ := hx
      cases p with
      | none => simp [hp]
      | some es => simp [hp]
  · have hs := Sort.sortBy_sorted (le := Sort.strLe) Sort.strLe_total Sort.strLe_trans ll.flatten.dedup
    have hn : (Sort.sortBy Sort.strLe ll.flatten.dedup).Nodup := hperm.nodup_iff.mpr (List.nodup_dedup _)
    exact hs.and hn

/-! ## Concrete cases -/

def e1 : Expr := ⟨"package.name == \"x\"".toList, ["package".toList]⟩
def d1 : Job := { id := "a".toList, plugin := "shell".toList, direct := ["b".toList], after := ["c".toList], prog := some (some [e1]) }
def d2 : Job := { id := "b".toList, plugin := "manual".toList }

/-- The hypotheses of `C135_graph_partial` hold. -/
example : (∀ j ∈ [d1, d2], PlainJob j) ∧ ∀ j ∈ [d1, d2], j.prog ≠ none := by
  refine ⟨?_, by decide⟩
  intro j hj
  simp only [List.mem_cons, List.not_mem_nil, or_false] at hj
  rcases hj with rfl | rfl
  · refine ⟨by decide, by decide, by decide, ?_⟩
    intro es h
    simp only [d1, Option.some.injEq] at h
    subst h
    decide
  · refine ⟨by decide, by decide, by decide, ?_⟩
    intro es h
    simp [d2] at h

example : graph (written (dotGraph true [d1, d2]).1) = some
    [.node "a".toList [], .edge "a".toList "b".toList [], .edge "a".toList "c".toList [("style".toList, "dotted".toList)],
      .node "package".toList [("shape".toList, "ellipse".toList), ("color".toList, "blue".toList)],
      .edge "a".toList "package".toList [("style".toList, "dashed".toList), ("label".toList, "package.name == 'x'".toList)],
      .node "b".toList [("color".toList, "orange".toList)]] := by decide +kernel

example : exprList [d1, d2, d1] = some ["package.name == \"x\"".toList] := by decide +kernel

example : (dotGraph true [d1, { d2 with prog := none }, d1]).1 = (dotGraph true [d1, { d2 with prog := none }]).1 :=
  congrArg Prod.fst (C135_stops true [d1] { d2 with prog := none } [d1] rfl)

/-- **C135** does not hold for all plugins: a job of plugin user-interact-verify that no other job depends on is not in the graph. -/
theorem C135_plugin_violated :
    graph (written (dotGraph true [{ id := "a".toList, plugin := "user-interact-verify".toList }]).1) = some [] := by decide +kernel

/-- **C135** does not hold for names with quotes: the file cannot be read. -/
theorem C135_quote_violated :
    graph (written (dotGraph true [{ id := "a\"b".toList, plugin := "shell".toList }]).1) = none := by decide +kernel

end Verif.Dot
