import Verif.Model.Sort
import Mathlib.Data.List.Dedup

/-!
# What `plainbox dev special` prints of requirements and dependencies

Models `SpecialInvocation._print_expression_list` and `_print_dot_graph` (`plainbox/impl/commands/inv_special.py`, "inv_special").
The choice of the jobs is that of C88. A job is given by what is asked of it: its id and plugin, its dependencies, in the order in
which Python goes over the set, and its requirement program, the reading of which may raise.
-/

namespace Verif.Dot

/-- Texts. (standard library) -/
abbrev Str := List Char

/-- An expression of a requirement program: its text and the resources it is about. (inv_special 84-85, 108-109) -/
structure Expr where
  text : Str
  ids : List Str
deriving DecidableEq, Repr

/-- What is asked of a job; `prog` is `none` if `get_resource_program` raises. (inv_special 81-85, 93-107) -/
structure Job where
  id : Str
  plugin : Str
  direct : List Str := []
  after : List Str := []
  prog : Option (Option (List Expr)) := some none
deriving DecidableEq, Repr

/-- The requirements of one job, or `none` if there is an exception. (inv_special 82-85) -/
def exprTexts (j : Job) : Option (List Str) :=
  j.prog.map fun p => (p.getD []).map Expr.text

/-- `_print_expression_list`, inv_special 78-87: the lines, or `none` if there is an exception. -/
def exprList (jobs : List Job) : Option (List Str) :=
  (jobs.mapM exprTexts).map fun l => Sort.sortBy Sort.strLe l.flatten.dedup

/-- `'"{}"'.format(s)`. (inv_special 94-113) -/
def quoted (s : Str) : Str := '"' :: s ++ ['"']

/-- The line about the job itself, inv_special 93-100. -/
def nodeLines (j : Job) : List Str :=
  if j.plugin = "resource".toList then [['\t'] ++ quoted j.id ++ " [shape=ellipse,color=blue];".toList]
  else if j.plugin = "attachment".toList then [['\t'] ++ quoted j.id ++ " [color=green];".toList]
  else if j.plugin = "shell".toList then [['\t'] ++ quoted j.id ++ " [];".toList]
  else if j.plugin = "manual".toList ∨ j.plugin = "user-verify".toList ∨ j.plugin = "user-interact".toList then
    [['\t'] ++ quoted j.id ++ " [color=orange];".toList]
  else []

/-- `str.replace('"', "'")`. (inv_special 114) -/
def singled (s : Str) : Str := s.map fun c => if c = '"' then '\'' else c

/-- The lines about a requirement, inv_special 108-114. -/
def exprLines (id : Str) (e : Expr) : List Str :=
  e.ids.flatMap fun r =>
    [['\t'] ++ quoted r ++ " [shape=ellipse,color=blue];".toList,
     ['\t'] ++ quoted id ++ " -> ".toList ++ quoted r ++ " [style=dashed, label=".toList ++ quoted (singled e.text) ++ "];".toList]

/-- The lines about a job, and whether there is an exception, inv_special 93-114. -/
def jobLines (res : Bool) (j : Job) : List Str × Bool :=
  let own := nodeLines j ++
    j.direct.map (fun d => ['\t'] ++ quoted j.id ++ " -> ".toList ++ quoted d ++ [';']) ++
    j.after.map fun d => ['\t'] ++ quoted j.id ++ " -> ".toList ++ quoted d ++ " [style=dotted];".toList
  match j.prog with
  | none => (own, true)
  | some none => (own, false)
  | some (some es) => (if res then own ++ es.flatMap (exprLines j.id) else own, false)

/-- The loop over the jobs, which an exception ends. (inv_special 92-114) -/
def loop (res : Bool) : List Job → List Str × Bool
  | [] => ([], false)
  | j :: js =>
    match jobLines res j with
    | (l, true) => (l, true)
    | (l, false) => (l ++ (loop res js).1, (loop res js).2)

/-- `_print_dot_graph`, inv_special 89-115: the lines that are printed, and whether there is an exception. -/
def dotGraph (res : Bool) (jobs : List Job) : List Str × Bool :=
  match loop res jobs with
  | (l, true) => ("digraph dependency_graph {".toList :: "\tnode [shape=box];".toList :: l, true)
  | (l, false) => ("digraph dependency_graph {".toList :: "\tnode [shape=box];".toList :: l ++ ["}".toList], false)

/-- What is written to the standard output: `print` ends each line. (inv_special 91-115) -/
def written (lines : List Str) : Str := lines.flatMap fun l => l ++ ['\n']

end Verif.Dot
