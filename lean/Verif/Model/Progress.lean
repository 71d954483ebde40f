/-!
# The completion ratio of `plainbox run`

Models `get_completion_ratio` of `plainbox/impl/commands/inv_run.py` (1004-1028).  Durations are rational
numbers instead of floating point numbers.
-/

namespace Verif.Progress

/-- A job of the run list: its estimated duration, and whether its result has an outcome. (inv_run.py:1004-1028) -/
structure Item where
  estimate : Option Rat
  done : Bool
  deriving DecidableEq

/-- The local variables of the loop (1005-1009). -/
structure Acc where
  totalTime : Rat := 0
  doneCnt : Nat := 0
  doneTime : Rat := 0
  reliable : Bool := true

/-- One pass of the loop (1010-1018). -/
def step (a : Acc) (x : Item) : Acc :=
  match x.estimate with
  | none => { a with reliable := false }
  | some inc =>
    if x.done then
      { a with totalTime := a.totalTime + inc, doneCnt := a.doneCnt + 1, doneTime := a.doneTime + inc }
    else { a with totalTime := a.totalTime + inc }

/-- `get_completion_ratio` (1004-1028). -/
def ratio (items : List Item) : Rat :=
  let a := items.foldl step {}
  if a.reliable then
    if a.totalTime = 0 then 0 else a.doneTime / a.totalTime
  else
    if items.length = 0 then 0 else (a.doneCnt : Rat) / (items.length : Rat)

end Verif.Progress
