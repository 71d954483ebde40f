import Mathlib.Algebra.Order.Field.Rat

/-!
# Estimated durations

Model of `JobDefinition.estimated_duration` (`plainbox/impl/unit/job.py` 425-463), of
`SessionState.get_estimated_duration` (`plainbox/impl/session/state.py` 945-980), of
`print_estimated_duration` and the time left that `run_all_selected_jobs` prints
(`plainbox/impl/commands/inv_run.py` 981-998, 717-750), of `TestPlanUnit.estimated_duration`
(`plainbox/impl/unit/testplan.py` 269-303) and of the validation of the field (job.py 863-875, testplan.py
659-671, `plainbox/impl/unit/validators.py` 285-305).

Text is a list of characters.  Which characters `\d` matches and what digit `int` takes them for is a
parameter (Unicode has many), as is `float`.  Durations of sessions are rational instead of floating point
numbers.
-/

namespace Verif.Duration

/-- Texts, as lists of characters (job.py 425-463). -/
abbrev Str := List Char

/-- The decimal digits: `\d` of `re`, with the value `int` gives them (job.py 438, 443). -/
structure Digits where
  val : Char → Option Nat
  small : ∀ c n, val c = some n → n < 10
  others : ∀ c ∈ ['h', 'm', 's', ' ', ':', '\n'], val c = none

/-- `\d`. (job.py 438) -/
def Digits.is (d : Digits) (c : Char) : Bool := (d.val c).isSome

/-- `int(text)` of a text of digits (job.py 443, 449, 455). -/
def Digits.int (d : Digits) (s : Str) : Nat := s.foldl (fun n c => 10 * n + (d.val c).getD 0) 0

/-- `\d+` at the beginning of a text, as the matcher tries it: what it takes and what is left, longest
first. (job.py 438) -/
def digitsPlus (d : Digits) : Str → List (Str × Str)
  | [] => []
  | c :: s =>
    if d.is c then (digitsPlus d s).map (fun p => (c :: p.1, p.2)) ++ [([c], s)] else []

/-- A literal character. (job.py 438) -/
def lit (u : Char) (p : Str × Str) : List (Option Str × Str) :=
  match p.2 with
  | [] => []
  | c :: r => if c = u then [(some p.1, r)] else []

/-- `(\d+u)?` for a letter `u`: the digits and what is left, or nothing (job.py 438). -/
def group (d : Digits) (u : Char) (s : Str) : List (Option Str × Str) :=
  (digitsPlus d s).flatMap (lit u) ++ [(none, s)]

/-- `[ :]*`: what is left, most taken first (job.py 438). -/
def seps : Str → List Str
  | [] => [[]]
  | c :: s => if c = ' ' ∨ c = ':' then seps s ++ [c :: s] else [c :: s]

/-- `$`: the end, or before a line break at the end. (job.py 438) -/
def atEnd (s : Str) : Bool := s = [] || s = ['\n']

/-- `re.match('^(\d+h)?[ :]*(\d+m)?[ :]*(\d+s)?$', value)` (job.py 438): the groups of all ways to match, in
the order in which they are tried. -/
def allMatches (d : Digits) (s : Str) : List (Option Str × Option Str × Option Str) :=
  (group d 'h' s).flatMap fun h => (seps h.2).flatMap fun s1 =>
    (group d 'm' s1).flatMap fun m => (seps m.2).flatMap fun s2 =>
      ((group d 's' s2).filter fun x => atEnd x.2).map fun x => (h.1, m.1, x.1)

/-- The number of one group, zero without it (job.py 440-457). -/
def count (d : Digits) : Option Str → Nat
  | none => 0
  | some s => d.int s

/-- A duration: seconds as an integer, a number, or `None`. (job.py 425-463) -/
inductive Dur (F : Type) where
  | secs (n : Nat)
  | num (f : F)
  | unknown
deriving DecidableEq, Repr

/-- `estimated_duration` of a job with this text in the field (job.py 433-463); `float` is `none` for
`ValueError`. -/
def estimatedDuration {F : Type} (d : Digits) (float : Str → Option F) : Option Str → Dur F
  | none => .unknown
  | some value =>
    match allMatches d value with
    | (h, m, s) :: _ => .secs (count d s + count d m * 60 + count d h * 3600)
    | [] =>
      match float value with
      | some f => .num f
      | none => .unknown

/-- `estimated_duration` of a test plan (testplan.py 278-303): like that of a job, but the `ValueError` of
`float` comes out (`none`). -/
def planDuration {F : Type} (d : Digits) (float : Str → Option F) : Option Str → Option (Dur F)
  | none => some .unknown
  | some value =>
    match allMatches d value with
    | (h, m, s) :: _ => some (.secs (count d s + count d m * 60 + count d h * 3600))
    | [] =>
      match float value with
      | some f => some (.num f)
      | none => none

/-- `float(duration) > 0` (job.py 871), `positive` for numbers; an exception counts as not correct
(validators.py 296-299). -/
def Dur.positive {F : Type} (positive : F → Bool) : Dur F → Bool
  | .secs n => 0 < n
  | .num f => positive f
  | .unknown => false

/-- Whether the field has a text (job.py 873-874). -/
def given : Option Str → Bool
  | none => false
  | some s => s ≠ []

/-- Whether "value must be a positive number" is reported for the field of a job (job.py 870-874). -/
def jobError {F : Type} (d : Digits) (float : Str → Option F) (positive : F → Bool) (value : Option Str) : Bool :=
  given value && !(estimatedDuration d float value).positive positive

/-- What checking the field of a test plan comes to (testplan.py 662-670).  The first validator reads the
property outside of its `try` (validators.py 290): `none` is a `ValueError` that ends the validation.  Else
whether "value must be a positive number" is reported. -/
def planError {F : Type} (d : Digits) (float : Str → Option F) (positive : F → Bool) (isVirtual : Bool)
    (value : Option Str) : Option Bool :=
  if isVirtual then some false
  else
    match planDuration d float value with
    | none => none
    | some t => some (given value && !t.positive positive)

/-- One pass of the loop that gathers the jobs to run (inv_run.py 734-738). -/
def gatherStep : Option Rat → Option Rat → Option Rat
  | some t, some e => some (t + e)
  | _, _ => none

/-- The estimated time before the first job: the loop that gathers the jobs to run (inv_run.py 725-738). -/
def gather (estimates : List (Option Rat)) : Option Rat := estimates.foldl gatherStep (some 0)

/-- The time left after a job (inv_run.py 747-749). -/
def after : Option Rat → Option Rat → Option Rat
  | some e, some t => some (t - e)
  | _, t => t

/-- The time left as printed before each job, `none` for "unknown" (inv_run.py 739-749); rounding and the
form of the text are left out. -/
def headers : Option Rat → List (Option Rat) → List (Option Rat)
  | _, [] => []
  | t, e :: es => t.map (max 0) :: headers (after e t) es

/-- What `get_estimated_duration` reads of a job. (state.py 945-980) -/
structure Job where
  automated : Bool
  hasCommand : Bool
  estimate : Option Rat
deriving DecidableEq

/-- The two totals of `get_estimated_duration` (state.py 963-964). -/
structure Totals where
  auto : Option Rat := some 0
  manual : Option Rat := some 0
deriving DecidableEq

/-- One pass of the loop for an automated job (state.py 966-970). -/
def autoStep (t : Option Rat) (j : Job) : Option Rat :=
  match t with
  | none => none
  | some a =>
    match j.estimate with
    | some e => some (a + e)
    | none => none

/-- One pass of the loop for another job (state.py 971-979). -/
def manualStep (overhead : Rat) (t : Option Rat) (j : Job) : Option Rat :=
  match t with
  | none => none
  | some m =>
    match j.estimate with
    | some e => some (m + overhead + e)
    | none => if j.hasCommand then none else some (m + overhead)

/-- One pass of the loop (state.py 965-979). -/
def step (overhead : Rat) (t : Totals) (j : Job) : Totals :=
  if j.automated then { t with auto := autoStep t.auto j }
  else { t with manual := manualStep overhead t.manual j }

/-- `get_estimated_duration` (state.py 945-980) for a run list. -/
def totals (overhead : Rat) (jobs : List Job) : Totals := jobs.foldl (step overhead) {}

/-- The two forms of the messages of `print_estimated_duration` (inv_run.py 987-998): the duration, or that
it cannot be determined. -/
def shown (t : Option Rat) : Option Rat :=
  match t with
  | none => none
  | some x => if x = 0 then none else some x

end Verif.Duration
