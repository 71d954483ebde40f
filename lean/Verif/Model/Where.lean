import Verif.Model.RFC822
import Verif.Model.Origin
import Verif.Model.Words

/-! # Lines of fields and where they come from

Models `IncludeStmtList.parse` (`plainbox/impl/xparsers.py`, "xparsers"), the origins of qualifiers made by
`TestPlanUnit._gen_qualifiers` (`plainbox/impl/unit/testplan.py`, "testplan") and the origins of issues reported by
`UnitValidator` (`plainbox/impl/unit/unit.py`, "unit").

Simplified: of the statements only the line and its number are kept (what a line means is C29 and C30). -/

namespace Verif.Where

open Verif.Text (strip)
open Verif.Words (Str Exc Tok getToken)
open Verif.Origin (Origin)

/-- A line boundary of `str.splitlines`. (Standard library; used in xparsers 405, 568.) -/
def isBreak (c : Char) : Bool :=
  let n := c.toNat
  (10 ≤ n && n ≤ 13) || (28 ≤ n && n ≤ 30) || n == 0x85 || n == 0x2028 || n == 0x2029

/-- `str.splitlines()`; the flag says that a carriage return came before. (Standard library; used in xparsers 405, 568.) -/
def splitLines' : Bool → Str → List Str
  | _, [] => []
  | cr, c :: l =>
    if cr && c == '\n' then splitLines' false l
    else if isBreak c then [] :: splitLines' (c == '\r') l
    else
      match splitLines' false l with
      | [] => [[c]]
      | p :: ps => (c :: p) :: ps

/-- `str.splitlines()`. (Standard library; used in xparsers 405, 568.) -/
def splitLines (text : Str) : List Str := splitLines' false text

/-- One line in the loop of `IncludeStmtList.parse`, given its first token and what the later lines give: lines without
a token are skipped. (xparsers 568-573) -/
def includeOne (n : Nat) (line : Str) (token : Except Exc (Tok × Option Str × Nat))
    (rest : Except Exc (List (Nat × Str))) : Except Exc (List (Nat × Str)) :=
  match token with
  | .error e => .error e
  | .ok x =>
    match rest with
    | .error e => .error e
    | .ok es => .ok (if x.1 = .eof then es else (n, line) :: es)

/-- The loop of `IncludeStmtList.parse`: the lines that are parsed as statements, with their numbers.
(xparsers 564-575) -/
def includeLoop : Nat → List Str → Except Exc (List (Nat × Str))
  | _, [] => .ok []
  | n, line :: lines => includeOne n line (getToken line 0) (includeLoop (n + 1) lines)

/-- `IncludeStmtList.parse(text, 0, 0)`, xparsers 543-575; testplan 502. -/
def includeLines (text : Str) : Except Exc (List (Nat × Str)) := includeLoop 0 (splitLines text)

variable {S : Type} [DecidableEq S]

/-- The origin of a qualifier of line `k` of a field; `none` is `TypeError`. (testplan 418-425, 761-767) -/
def qualifierOrigin (o : Origin S) (off k : Nat) : Option (Origin S) :=
  match o.justLine.withOffset off with
  | none => none
  | some f => f.withOffset k

/-- The origin of an issue about a field with an offset, when none is given; `none` is `TypeError`. (unit 212-241) -/
def issueOrigin (o : Origin S) (offsets : List (Str × Nat)) (field : Str) (k : Nat) : Option (Origin S) :=
  match offsets.lookup field with
  | some off => (o.withOffset (off + k : Nat)).map Origin.justLine
  | none =>
    match offsets.lookup ('_' :: field) with
    -- `if origin is None` does not hold here, so the origin stays (unit 234-238)
    | some _ => some o
    | none => some o

end Verif.Where
