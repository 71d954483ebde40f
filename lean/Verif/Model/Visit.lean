import Verif.Model.Words
import Verif.Model.Pattern

/-!
# Visitors

Models `Node.enumerate_entries`, `Node.visit` and `Visitor` (`plainbox/impl/xparsers.py`, "xparsers"), and the visitors that
collect the identifiers in the fields `depends` and `after` of a job (`plainbox/impl/unit/job.py`, "job") and `bootstrap_include`
and `nested_part` of a test plan (`plainbox/impl/unit/testplan.py`, "testplan").

Simplified: of what a method of a visitor does, only this is modelled: that it sees the node, and whether it then goes on with
`generic_visit`, returns, or raises an exception. Fields of nodes cannot be changed (`pod.const`), so it does not matter that
`enumerate_entries` is a generator.
-/

namespace Verif.Visit

open Verif.Words (Str)

/-- What a field of a node holds: a node with the name of its class and its fields, a list, a text, or something else.
(xparsers 79-139) -/
inductive Val
  | node (cls : String) (fields : List Val)
  | list (items : List Val)
  | str (s : Str)
  | other

/-- `isinstance(obj, Node)`. (xparsers 134, 138) -/
def Val.isNode : Val → Bool
  | .node _ _ => true
  | _ => false

/-- What one field has. (xparsers 132-139) -/
def fieldEntries : Val → List Val
  | .node c f => [.node c f]
  | .list l => l.filter Val.isNode
  | _ => []

/-- `Node.enumerate_entries`, xparsers 131-139. -/
def entries (fields : List Val) : List Val := fields.flatMap fieldEntries

/-- What a method `visit_X_node` does when it has seen the node: return, call `generic_visit`, or raise instead of noting the
node. (xparsers 144-171; testplan 529-540) -/
inductive Method
  | leaf | deep | raises
deriving DecidableEq

/-- The methods of a visitor, by the name of the class. (xparsers 182-190) -/
abbrev Visitor := String → Option Method

/-- A loop over children: the nodes seen, in order, and whether there was an exception, which ends the loop. (xparsers 179-180) -/
def run : List (List Val × Bool) → List Val × Bool
  | [] => ([], false)
  | (l, true) :: _ => (l, true)
  | (l, false) :: r => (l ++ (run r).1, (run r).2)

/-- Children are smaller. (xparsers 131-139) -/
theorem entries_lt {fs : List Val} {c : Val} (h : c ∈ entries fs) : sizeOf c < 1 + sizeOf fs := by
  unfold entries at h
  rw [List.mem_flatMap] at h
  obtain ⟨f, hf, hc⟩ := h
  have h1 := List.sizeOf_lt_of_mem hf
  cases f with
  | node k f' =>
    simp only [fieldEntries, List.mem_singleton] at hc
    subst hc
    omega
  | list l =>
    simp only [fieldEntries, List.mem_filter] at hc
    have h2 := List.sizeOf_lt_of_mem hc.1
    simp only [Val.list.sizeOf_spec] at h1
    omega
  | str s => simp [fieldEntries] at hc
  | other => simp [fieldEntries] at hc

/-- `Visitor.visit` and `generic_visit`, xparsers 174-190: the nodes that methods have seen, in order, and whether there was an
exception. -/
def visit (v : Visitor) (n : Val) : List Val × Bool :=
  match n with
  | .node cls fs =>
    match v cls with
    | none => run ((entries fs).attach.map fun c => visit v c.1)
    | some .leaf => ([.node cls fs], false)
    | some .raises => ([], true)
    | some .deep =>
      let r := run ((entries fs).attach.map fun c => visit v c.1)
      (.node cls fs :: r.1, r.2)
  | _ => ([], false)
termination_by sizeOf n
decreasing_by
  all_goals
    simp only [Val.node.sizeOf_spec]
    have := entries_lt c.2
    omega

/-! ## Lists of identifiers -/

/-- `Text` and `Error` nodes with `lineno`, `col_offset` and the text. (xparsers 298-305, 630-634) -/
def ofEntry : Words.Entry → Val
  | .text s => .node "Text" [.other, .other, .str s]
  | .error l => .node "Error" [.other, .other, .str (l.getD [])]

/-- The node that `WordList.parse` gives. (xparsers 578-636) -/
def ofWords (es : List Words.Entry) : Val := .node "WordList" [.other, .other, .list (es.map ofEntry)]

/-- The class `V` with `visit_Text_node` and `visit_Error_node`. (job 627-633, 657-663; testplan 325-332, 349-356) -/
def idVisitor : Visitor := fun k => if k = "Text" ∨ k = "Error" then some .leaf else none

/-- `node.text` in `visit_Text_node`; the method for errors writes to the log. (job 629-633) -/
def textOf : Val → Option Str
  | .node "Text" [_, _, .str s] => some s
  | _ => none

/-- `set.add`. (job 630) -/
def setAdd (l : List Str) (x : Str) : List Str := if x ∈ l then l else l ++ [x]

/-- `get_direct_dependencies`, `get_after_dependencies` and the own part of `get_bootstrap_job_ids`: the set of the
identifiers. (job 614-636, 638-666; testplan 318-335) -/
def idSet (ns : Option Str) (fuel : Nat) (field : Option Str) : Except Words.Exc (List Str) :=
  match field with
  | none => .ok []
  | some text =>
    match Words.wordList fuel text with
    | .error x => .error x
    | .ok es => .ok (((visit idVisitor (ofWords es)).1.filterMap textOf).foldl
        (fun l s => setAdd l (Pattern.qualifyId ns s)) [])

/-- The identifiers of `get_nested_part`, which are in a list. (testplan 338-358) -/
def idList (ns : Option Str) (fuel : Nat) (field : Option Str) : Except Words.Exc (List Str) :=
  match field with
  | none => .ok []
  | some text =>
    match Words.wordList fuel text with
    | .error x => .error x
    | .ok es => .ok (((visit idVisitor (ofWords es)).1.filterMap textOf).map (Pattern.qualifyId ns))

end Verif.Visit
