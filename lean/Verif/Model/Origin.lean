import Verif.Basic

/-!
# Model of origins (`plainbox/impl/secure/origin.py`)

A comparison that raises `TypeError` (a line number against `None`) gives `none`.
-/

namespace Verif.Origin

/-- `Origin`, origin.py:45-72, with a source of any type. -/
structure Origin (S : Type) where
  source : S
  lineStart : Option Int
  lineEnd : Option Int
deriving DecidableEq, Repr

/-- `OriginMode`, origin.py:34-42. -/
inductive Mode where
  | wholeFile | singleLine | lineRange
deriving DecidableEq, Repr

variable {S : Type} [DecidableEq S]

/-- `Origin.mode`, origin.py:74-91. -/
def Origin.mode (o : Origin S) : Mode :=
  if o.lineStart = none ∧ o.lineEnd = none then .wholeFile
  else if o.lineStart = o.lineEnd then .singleLine
  else .lineRange

/-- `line + offset`; `None + offset` raises `TypeError`. (origin.py:130-146) -/
def addLine : Option Int → Int → Option Int
  | some n, k => some (n + k)
  | none, _ => none

/-- `Origin.with_offset`, origin.py:130-146; `none` when it raises `TypeError`. -/
def Origin.withOffset (o : Origin S) (k : Int) : Option (Origin S) :=
  match o.mode with
  | .wholeFile => some o
  | .singleLine | .lineRange =>
    match addLine o.lineStart k, addLine o.lineEnd k with
    | some a, some b => some ⟨o.source, some a, some b⟩
    | _, _ => none

/-- `Origin.just_line`, origin.py:148-156. -/
def Origin.justLine (o : Origin S) : Origin S := ⟨o.source, o.lineStart, o.lineStart⟩

/-- `Origin.just_file`, origin.py:158-165. -/
def Origin.justFile (o : Origin S) : Origin S := ⟨o.source, none, none⟩

/-- `a > b` on line numbers; `TypeError` when one is `None`. (Part of the comparison of tuples, origin.py:174-179.) -/
def lineGt : Option Int → Option Int → Option Bool
  | some a, some b => some (decide (a > b))
  | _, _ => none

/-- `Origin.__gt__`, origin.py:174-179: comparison of tuples, that is `>` on the first components
that are not equal.  `sgt` is `__gt__` of the sources. -/
def Origin.gt (sgt : S → S → Option Bool) (a b : Origin S) : Option Bool :=
  if a.source ≠ b.source then sgt a.source b.source
  else if a.lineStart ≠ b.lineStart then lineGt a.lineStart b.lineStart
  else if a.lineEnd ≠ b.lineEnd then lineGt a.lineEnd b.lineEnd
  else some false

/-- `__lt__` derived by `functools.total_ordering` from `__gt__`, origin.py:45: `not (a > b) and
a != b`. -/
def Origin.lt (sgt : S → S → Option Bool) (a b : Origin S) : Option Bool :=
  (a.gt sgt b).map fun g => !g && decide (a ≠ b)

/-- `__le__` derived by `functools.total_ordering`: `not (a > b)`. (origin.py:45, 174-179) -/
def Origin.le (sgt : S → S → Option Bool) (a b : Origin S) : Option Bool := (a.gt sgt b).map (!·)

/-- `__ge__` derived by `functools.total_ordering`: `a > b or a == b`. (origin.py:45, 174-179) -/
def Origin.ge (sgt : S → S → Option Bool) (a b : Origin S) : Option Bool :=
  (a.gt sgt b).map fun g => g || decide (a = b)

/-- `CommandLineTextSource.__gt__`, origin.py:363-370, for sources with names. -/
def cmdGt (a b : Nat × Nat) : Option Bool :=
  if a.1 > b.1 then some true else if a.2 > b.2 then some true else some false

end Verif.Origin
