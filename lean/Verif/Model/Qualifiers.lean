import Verif.Basic

/-!
# Model of job qualifiers (`plainbox/impl/secure/qualifiers.py`)

Simplification: matching a job against a primitive qualifier is a total function of the job (no
exception from `getattr`); sets of indices are lists up to membership.
-/

namespace Verif.Qualifiers

/-- `VOTE_EXCLUDE`, abc.py:324. -/
def EXCLUDE : Nat := 0
/-- `VOTE_INCLUDE`, abc.py:325. -/
def INCLUDE : Nat := 1
/-- `VOTE_IGNORE`, abc.py:326. -/
def IGNORE : Nat := 2

/-- How a primitive qualifier matches: `idEq v` is `FieldQualifier('id', OperatorMatcher(eq, v))`,
`other f` any other simple qualifier, qualifiers.py:122-360. -/
inductive Kind (J I : Type) where
  | idEq (v : I)
  | other (f : J → Bool)

/-- A simple qualifier, qualifiers.py:44-62. -/
structure Prim (J I : Type) where
  inclusive : Bool
  kind : Kind J I

/-- Qualifiers: simple ones and `CompositeQualifier`, qualifiers.py:363-409. -/
inductive Qual (J I : Type) where
  | prim (p : Prim J I)
  | comp (qs : List (Qual J I))

variable {J I : Type} [DecidableEq I] (idOf : J → I)

/-- `get_simple_match`. (qualifiers.py:77-82, 162-169, 199-206, 351-359) -/
def Prim.matches (p : Prim J I) (j : J) : Bool :=
  match p.kind with
  | .idEq v => decide (v = idOf j)
  | .other f => f j

/-- `SimpleQualifier.get_vote`, qualifiers.py:84-107. -/
def Prim.vote (p : Prim J I) (j : J) : Nat :=
  if p.matches idOf j then (if p.inclusive then INCLUDE else EXCLUDE) else IGNORE

/-- Python's `min` of a non-empty list, and `VOTE_IGNORE` for the empty one,
qualifiers.py:397-402. -/
def minVote : List Nat → Nat
  | [] => IGNORE
  | v :: vs => vs.foldl min v

mutual
/-- `get_vote` of any qualifier; `CompositeQualifier.get_vote` is qualifiers.py:382-402. -/
def Qual.vote : Qual J I → J → Nat
  | .prim p, j => p.vote idOf j
  | .comp qs, j => minVote (votes qs j)
/-- The list comprehension of qualifiers.py:399-400. -/
def votes : List (Qual J I) → J → List Nat
  | [], _ => []
  | q :: qs, j => q.vote j :: votes qs j
end

/-- `designates`, qualifiers.py:72-73 and 379-380. -/
def Qual.designates (q : Qual J I) (j : J) : Bool := q.vote idOf j == INCLUDE

mutual
/-- `get_primitive_qualifiers`, qualifiers.py:109-120 and 404-405. -/
def Qual.primitives : Qual J I → List (Prim J I)
  | .prim p => [p]
  | .comp qs => flatPrimitives qs
/-- `get_flat_primitive_qualifier_list`, qualifiers.py:422-425. -/
def flatPrimitives : List (Qual J I) → List (Prim J I)
  | [] => []
  | q :: qs => q.primitives ++ flatPrimitives qs
end

/-- `included_list` (whose elements are `included_set`) and `excluded_set`, qualifiers.py:485-488. -/
structure Sel where
  incl : List Nat
  excl : List Nat
deriving DecidableEq, Repr

/-- Recording a vote on the job at an index, qualifiers.py:508-517 and 519-529. -/
def Sel.record (s : Sel) (idx vote : Nat) : Sel :=
  if vote = INCLUDE then
    if idx ∈ s.incl then s else { s with incl := s.incl ++ [idx] }
  else if vote = EXCLUDE then { s with excl := s.excl ++ [idx] }
  else s

/-- `for j_index, job in enumerate(job_list)`, qualifiers.py:519-529. -/
def generalRow (jobs : List J) (q : Prim J I) (s : Sel) : Sel :=
  jobs.zipIdx.foldl (fun s x => s.record x.2 (q.vote idOf x.1)) s

/-- `id_to_index_map[v]`, qualifiers.py:486: the last index wins. -/
def indexOfId (jobs : List J) (v : I) : Option (J × Nat) :=
  jobs.zipIdx.reverse.find? fun x => decide (idOf x.1 = v)

/-- One iteration over the flattened qualifiers, qualifiers.py:489-529. -/
def row (jobs : List J) (s : Sel) (q : Prim J I) : Sel :=
  match q.kind with
  | .idEq v =>
    match indexOfId idOf jobs v with
    | none => s
    | some (j, idx) => s.record idx (q.vote idOf j)
  | .other _ => generalRow idOf jobs q s

/-- `select_jobs`, qualifiers.py:428-531. -/
def selectJobs (jobs : List J) (qs : List (Qual J I)) : List J :=
  if (flatPrimitives qs).isEmpty then []
  else
    let s := (flatPrimitives qs).foldl (row idOf jobs) ⟨[], []⟩
    (s.incl.filter fun i => decide (i ∉ s.excl)).filterMap fun i => jobs[i]?

end Verif.Qualifiers
