import Verif.Basic

/-!
# Model of `plainbox/impl/resource.py`

Requirement expressions: the syntax-tree visitor that accepts or rejects an expression, the
mapping of names to resource ids, evaluation over combinations of resources, and programs.

Simplifications: the Python parser (`ast.parse`, resource.py:636-639) is not modelled, an
expression is given as its syntax tree; the compiled lambda (532-533) is a parameter
`lam : List R → Option Bool` (`none` = it raised); translated messages and logging are dropped.
-/

namespace Verif.Resource

/-- Python expression trees (`ast.expr`).  `other` stands for every node class that is not
listed: lambda, subscript, comprehension, dict, set, conditional, f-string, await, ...
(resource.py:352-385, 412-454, 636-639) -/
inductive Ast where
  | name (id : String)
  | num (n : Int)
  | str (s : String)
  | attr (value : Ast) (field : String)
  | binOp (left right : Ast)
  | unaryOp (operand : Ast)
  | boolOp (values : List Ast)
  | compare (left : Ast) (comparators : List Ast)
  | list (elts : List Ast)
  | tuple (elts : List Ast)
  | call (func : Ast) (args : List Ast)
  | other (cls : String) (children : List Ast)
deriving Repr

/-- What the visitor can raise: `CodeNotAllowed` (resource.py:274-288) or the `AttributeError`
of `node.func.id` when the called thing is not a plain name (433). -/
inductive VisitErr where
  | codeNotAllowed | attributeError
deriving DecidableEq, Repr

/-- `_allowed_call_func_list`, resource.py:353-358. -/
def allowedCalls : List String := ["len", "bool", "int", "float"]

/-- `visit_Name`, resource.py:412-422: remember an identifier the first time it is seen. -/
def see (ids : List String) (id : String) : List String :=
  if id ∈ ids then ids else ids ++ [id]

mutual
/-- `ResourceNodeVisitor.visit` on one expression, resource.py:412-454, threading the
`_ids_seen_list`.  Classes on the white-list (362-389) recurse into their children in field order.
`ast.operator` and `ast.unaryop` are not on the white-list, so the operator child of `BinOp` is
rejected after its left operand was visited (fields `left`, `op`, `right`) and the operator child
of `UnaryOp` at once (fields `op`, `operand`).  `visit_Call` (424-434) does not visit children. -/
def visit : Ast → List String → Except VisitErr (List String)
  | .name id, ids => .ok (see ids id)
  | .num _, ids => .ok ids
  | .str _, ids => .ok ids
  | .attr v _, ids => visit v ids
  | .binOp l _, ids =>
    match visit l ids with
    | .error e => .error e
    | .ok _ => .error .codeNotAllowed
  | .unaryOp _, _ => .error .codeNotAllowed
  | .boolOp vs, ids => visitList vs ids
  | .compare l cs, ids =>
    match visit l ids with
    | .error e => .error e
    | .ok ids' => visitList cs ids'
  | .list es, ids => visitList es ids
  | .tuple es, ids => visitList es ids
  | .call (.name f) _, ids =>
    if f ∈ allowedCalls then .ok ids else .error .codeNotAllowed
  | .call _ _, _ => .error .attributeError
  | .other _ _, _ => .error .codeNotAllowed
/-- The child loop of `ast.NodeVisitor.generic_visit`. (resource.py:436-444) -/
def visitList : List Ast → List String → Except VisitErr (List String)
  | [], ids => .ok ids
  | a :: as, ids =>
    match visit a ids with
    | .error e => .error e
    | .ok ids' => visitList as ids'
end

/-- Errors of `ResourceExpression(text)`. (resource.py:274-288, 486-492, 629-649) -/
inductive ExprErr where
  | codeNotAllowed | attributeError | noResourcesReferenced
deriving DecidableEq, Repr

/-- `_analyze` after parsing, resource.py:643-649. -/
def analyze (a : Ast) : Except ExprErr (List String) :=
  match visit a [] with
  | .error .codeNotAllowed => .error .codeNotAllowed
  | .error .attributeError => .error .attributeError
  | .ok [] => .error .noResourcesReferenced
  | .ok ids => .ok ids

/-- The import loop of `ResourceExpression.__init__`, resource.py:524-530: `imports` is a list of
`(resource id, alias)`; the first entry for the alias wins. -/
def resolveAlias (imports : List (String × String)) (alias : String) : String :=
  match imports.find? (fun p => p.2 = alias) with
  | some p => p.1
  | none => alias

/-- `resource_id_list`, resource.py:567-572.  `hasNs` is the test `"::" in resource_id`. -/
def qualifyRes (hasNs : String → Bool) (ns : Option String) (rid : String) : String :=
  if hasNs rid then rid
  else match ns with
    | some n => if n = "" then rid else n ++ "::" ++ rid
    | none => rid

/-- `resource_id_list` of a whole expression, resource.py:518-530 and 567-572. -/
def resourceIds (hasNs : String → Bool) (ns : Option String) (imports : List (String × String))
    (a : Ast) : Except ExprErr (List String) :=
  match analyze a with
  | .error e => .error e
  | .ok aliases => .ok (aliases.map fun x => qualifyRes hasNs ns (resolveAlias imports x))

/-! ## Evaluation -/

variable {R I E : Type}

/-- `itertools.product(*lists)`, used at resource.py:606: rightmost list varies fastest. -/
def product : List (List R) → List (List R)
  | [] => [[]]
  | l :: ls => l.flatMap fun r => (product ls).map fun p => r :: p

/-- The loop of `ResourceExpression.evaluate`, resource.py:606-626: an exception (`none`) is
skipped, the first true result returns. -/
def evalLoop (lam : List R → Option Bool) : List (List R) → Bool
  | [] => false
  | pack :: rest =>
    match lam pack with
    | none => evalLoop lam rest
    | some true => true
    | some false => evalLoop lam rest

/-- `ResourceExpression.evaluate`, resource.py:592-626. -/
def evaluate (lam : List R → Option Bool) (lists : List (List R)) : Bool :=
  evalLoop lam (product lists)

/-- What an expression object offers to a program: `resource_id_list` and `evaluate`.
(resource.py:559-572, 592-626) -/
structure ExprSem (E I R : Type) where
  resIds : E → List I
  lam : E → List R → Option Bool

/-- Result of `ResourceProgram.evaluate_or_raise`: `True`, `ExpressionCannotEvaluateError`
(resource.py:61-77) or `ExpressionFailedError` (38-58). -/
inductive ProgOutcome (E I : Type) where
  | ok
  | cannotEvaluate (e : E) (i : I)
  | failed (e : E)
deriving DecidableEq, Repr

variable [DecidableEq I]

/-- Inner loop of the availability check, resource.py:249-252. -/
def firstAbsent (m : List (I × List R)) : List I → Option I
  | [] => none
  | i :: is => if (m.lookup i).isSome then firstAbsent m is else some i

/-- Availability check, resource.py:248-252. -/
def checkAvail (s : ExprSem E I R) (m : List (I × List R)) : List E → Option (E × I)
  | [] => none
  | e :: es =>
    match firstAbsent m (s.resIds e) with
    | some i => some (e, i)
    | none => checkAvail s m es

/-- The evaluation loop, resource.py:254-261.  `resource_map[resource_id]` cannot raise after the
availability check; the model uses the empty list for an absent id, a value that
`evaluateOrRaise` never lets through. -/
def evalAll (s : ExprSem E I R) (m : List (I × List R)) : List E → ProgOutcome E I
  | [] => .ok
  | e :: es =>
    if evaluate (s.lam e) ((s.resIds e).map fun i => (m.lookup i).getD []) then evalAll s m es
    else .failed e

/-- `evaluate_or_raise`, resource.py:234-261. -/
def evaluateOrRaise (s : ExprSem E I R) (m : List (I × List R)) (es : List E) :
    ProgOutcome E I :=
  match checkAvail s m es with
  | some (e, i) => .cannotEvaluate e i
  | none => evalAll s m es

/-- `required_resources`, resource.py:223-232 (a set; here with repetitions). -/
def requiredResources (s : ExprSem E I R) (es : List E) : List I := es.flatMap s.resIds

/-! ## `parse_imports_stmt` -/

/-- Errors of `parse_imports_stmt` are all `ValueError`, resource.py:668-695. -/
def parseImportLine (hasNs : String → Bool) (parts : List String) : Option (String × String) :=
  match parts with
  | [p0, p1, p2, p3] =>
    if p0 ≠ "from" then none else if hasNs p1 then none else if p2 ≠ "import" then none
    else if hasNs p3 then none else some (p1 ++ "::" ++ p3, p3)
  | [p0, p1, p2, p3, p4, p5] =>
    if p0 ≠ "from" then none else if hasNs p1 then none else if p2 ≠ "import" then none
    else if hasNs p3 then none else if p4 ≠ "as" then none else some (p1 ++ "::" ++ p3, p5)
  | _ => none

end Verif.Resource
