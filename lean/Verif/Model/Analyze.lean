import Verif.Model.Duration
import Verif.Model.Resource
import Verif.Model.Sort
import Mathlib.Data.Rat.Floor

/-!
# The reports of `plainbox dev analyze`

Models `AnalyzeInvocation.run` and the reports in `plainbox/impl/commands/inv_analyze.py` ("inv" below), with `JobDefinition.automated`
and `JobDefinition.get_resource_program` in `plainbox/impl/unit/job.py` ("job") and `timedelta` of the standard library.

Simplifications: which jobs are selected and which are on the run list is given (`Verif.Model.Select`, `Verif.Model.Session`); lines of
the field `requires` are given as syntax trees (`Verif.Model.Resource`) and `imports` as a list of pairs; seconds are rational numbers;
messages are not translated; ids of jobs are not empty.
-/

namespace Verif.Analyze

/-- Texts (inv 45-176). -/
abbrev Str := List Char

/-- What the reports ask of a job: `id`, `plugin`, `estimated_duration`, whether there is a `command` (state.py 978), whether the text of
`requires` is not empty (inv 164), its lines that are not empty (`none` is a syntax error; resource.py 205-209, 637-639), the namespace of
its provider and the pairs of `imports` (job 605-612). -/
structure Job where
  id : Str
  plugin : Option String
  seconds : Option Rat := none
  command : Bool := false
  requires : Bool := false
  lines : List (Option Resource.Ast) := []
  ns : Option String := none
  imports : List (String × String) := []

/-- What is raised: by `timedelta` (`OverflowError`; inv 115, 126-132), by the reading of `requires` (job 598-599), or because there is
no such attribute (inv 145, 170). -/
inductive Err
  | overflow
  | program
  | attribute
deriving DecidableEq

/-- What is printed, as lines, and what is raised afterwards. (inv 58-176) -/
structure Out where
  lines : List Str
  err : Option Err := none
deriving DecidableEq

/-- First this and then that, unless this raised something. (inv 58-74) -/
def Out.next (a b : Out) : Out := if a.err.isSome then a else ⟨a.lines ++ b.lines, b.err⟩

/-! ## Texts -/

/-- `text.center(80, '=')` (standard library, in inv 77-160). -/
def heading (t : Str) : Str :=
  let pad := 80 - t.length
  List.replicate (pad / 2) '=' ++ t ++ List.replicate (pad - pad / 2) '='

/-- `'{:n}'.format(text)` (standard library, in inv 104-105). -/
def ljust (n : Nat) (t : Str) : Str := t ++ List.replicate (n - t.length) ' '

/-- `'{}'.format(number)` (standard library, in inv 88, 89). -/
def number (n : Nat) : Str := Nat.toDigits 10 n

/-- `'%0wd' % n` (standard library, in `timedelta.__str__`, behind inv 115). -/
def zeros (w n : Nat) : Str := List.replicate (w - (number n).length) '0' ++ number n

/-! ## Durations -/

/-- Rounding to the nearest whole number, half to even. (standard library, in `timedelta`, behind inv 115) -/
def nearest (q : Rat) : Int :=
  let f := ⌊q⌋
  if q - f < 1 / 2 then f else if 1 / 2 < q - f then f + 1 else if f % 2 = 0 then f else f + 1

/-- Microseconds of a day. (standard library, in `timedelta`, used in inv 115, 126-132) -/
def day : Int := 86400000000

/-- `timedelta(seconds=q)`, as microseconds. (standard library, used in inv 115, 126-132) -/
def timedelta (q : Rat) : Except Err Int :=
  let us := nearest (q * 1000000)
  if -999999999 ≤ us / day ∧ us / day ≤ 999999999 then .ok us else .error .overflow

/-- The days of `timedelta.__str__`, if there are any. (standard library, behind inv 115) -/
def days (d : Int) : Str :=
  if d = 0 then []
  else (if d < 0 then ['-'] else []) ++ number d.natAbs ++ " day".toList ++ (if d.natAbs = 1 then [] else ['s']) ++ ", ".toList

/-- `timedelta.__str__` (standard library, behind inv 115, 126-132). -/
def clock (us : Int) : Str :=
  let r := (us % day).toNat
  let s := r / 1000000
  let u := r % 1000000
  days (us / day) ++ number (s / 3600) ++ ':' :: zeros 2 (s / 60 % 60) ++ ':' :: zeros 2 (s % 60) ++
    (if u = 0 then [] else '.' :: zeros 6 u)

/-- A duration, or another text for none. (inv 115-117, 126-134) -/
def duration (unknown : String) : Option Rat → Except Err Str
  | none => .ok unknown.toList
  | some q => (timedelta q).map clock

/-! ## Reports -/

/-- What the session knows: all jobs, the selected ones, the problems as texts, the desired list and the run list after
`update_desired_job_list`. (inv 47-56) -/
structure Session where
  known : List Job
  selected : List Job
  problems : List Str
  desired : List Job
  runList : List Job

/-- `_print_general_stats`, inv 86-89. -/
def stats (s : Session) : Out :=
  ⟨[heading "[General Statistics]".toList, "Known jobs: ".toList ++ number s.known.length,
    "Selected jobs: ".toList ++ number s.selected.length], none⟩

/-- `_print_dependency_report`, inv 91-97. -/
def dependencies (s : Session) : Out :=
  ⟨heading "[Dependency Report]".toList ::
    (if s.problems = [] then ["Selected jobs have no dependency problems".toList] else s.problems.map fun p => " * ".toList ++ p), none⟩

/-- `automated`, job 569-575. -/
def automated (j : Job) : Bool := j.plugin ∈ [some "shell", some "resource", some "attachment"]

/-- `max(len(job.id) for job in run_list)`, inv 103, 140. -/
def width (l : List Job) : Nat := l.foldl (fun n j => max n j.id.length) 0

/-- A line of the report, inv 104-119. -/
def interactivityLine (w : Nat) (j : Job) : Except Err Str :=
  (duration "unknown" j.seconds).map fun d =>
    ljust w j.id ++ " : ".toList ++ ljust 11 (if automated j then "automatic".toList else "interactive".toList) ++ " : ".toList ++ d

/-- The loop over the jobs, inv 106-119. -/
def interactivityLines (w : Nat) : List Job → Out
  | [] => ⟨[], none⟩
  | j :: js =>
    match interactivityLine w j with
    | .ok l => Out.next ⟨[l], none⟩ (interactivityLines w js)
    | .error e => ⟨[], some e⟩

/-- `_print_interactivity_report`, inv 99-119; nothing but the heading if there are no jobs. -/
def interactivity (s : Session) : Out :=
  Out.next ⟨[heading "[Interactivity Report]".toList], none⟩ (interactivityLines (width s.runList) s.runList)

/-- What `get_estimated_duration` reads of a job. (state.py 965-979) -/
def toDuration (j : Job) : Duration.Job := ⟨automated j, j.command, j.seconds⟩

/-- A line of the report, inv 125-134. -/
def estimateLine (label : String) (q : Option Rat) : Out :=
  match duration "cannot estimate" q with
  | .ok d => ⟨["   ".toList ++ label.toList ++ d], none⟩
  | .error e => ⟨[], some e⟩

/-- `manual + automated` if there are both, inv 131-134. -/
def total : Option Rat → Option Rat → Option Rat
  | some m, some a => some (m + a)
  | _, _ => none

/-- `_print_estimated_duration_report`, inv 121-134. -/
def estimates (s : Session) : Out :=
  let t := Duration.totals 30 (s.runList.map toDuration)
  Out.next ⟨[heading "[Estimated Duration Report]".toList, "Estimated test duration:".toList], none⟩
    (Out.next (estimateLine "automated tests: " t.auto)
      (Out.next (estimateLine "manual tests: " t.manual) (estimateLine "total: " (total t.manual t.auto))))

/-- `_print_validation_report`, inv 136-156: jobs have no method `validate`, so that the first one ends the report. -/
def validation (s : Session) : Out :=
  match s.runList with
  | [] => ⟨[heading "[Validation Report]".toList], none⟩
  | _ :: _ => ⟨[heading "[Validation Report]".toList], some .attribute⟩

/-- `"::" in resource_id`, resource.py 569. -/
def hasColons : List Char → Bool
  | [] => false
  | c :: r => (c == ':' && r.head? == some ':') || hasColons r

/-- `get_resource_program`, job 591-614: the ids of the resources of every expression. -/
def program (ns : Option String) (imports : List (String × String)) : List (Option Resource.Ast) → Except Err (List (List String))
  | [] => .ok []
  | none :: _ => .error .program
  | some a :: l =>
    match Resource.resourceIds (fun r => hasColons r.toList) ns imports a with
    | .error _ => .error .program
    | .ok ids => (program ns imports l).map (ids :: ·)

/-- The texts of the expressions about `package`, inv 167-170: expressions have no attribute `resource_id`. -/
def packageTexts : List (List String) → Except Err (List Str)
  | [] => .ok []
  | _ :: _ => .error .attribute

/-- The loop over the jobs, inv 162-174: what is added to `requirements`; no text gets as far as the visitor (inv 171-174). -/
def requirements : List Job → Except Err (List Str)
  | [] => .ok []
  | j :: js =>
    if !j.requires then requirements js
    else
      match program j.ns j.imports j.lines with
      | .error e => .error e
      | .ok p =>
        if "package" ∈ p.flatten then
          match packageTexts p with
          | .error e => .error e
          | .ok l => (requirements js).map (l ++ ·)
        else requirements js

/-- `',\n'.join(texts)` as lines, inv 176. -/
def commaLines : List Str → List Str
  | [] => []
  | [x] => [x]
  | x :: xs => (x ++ [',']) :: commaLines xs

/-- `_print_requirement_report`, inv 158-176. -/
def requirementReport (s : Session) : Out :=
  match requirements s.runList with
  | .error e => ⟨[heading "[Requirement Report]".toList], some e⟩
  | .ok l =>
    ⟨heading "[Requirement Report]".toList :: commaLines (Sort.sortBy Sort.strLe l.dedup), none⟩

/-- `_print_desired_job_list`, inv 76-79. -/
def desiredList (s : Session) : Out := ⟨heading "[Desired Job List]".toList :: s.desired.map (·.id), none⟩

/-- `_print_run_list`, inv 81-84. -/
def runListReport (s : Session) : Out := ⟨heading "[Run List]".toList :: s.runList.map (·.id), none⟩

/-- The options (cmd_analyze.py 57-86). -/
structure Options where
  stats : Bool := false
  dependencies : Bool := false
  interactivity : Bool := false
  estimates : Bool := false
  validation : Bool := false
  requirements : Bool := false
  desired : Bool := false
  runList : Bool := false
deriving DecidableEq

/-- A report if it is asked for. (inv 59-74) -/
def asked (b : Bool) (o : Out) : Out := if b then o else ⟨[], none⟩

/-- `run`, inv 58-74. -/
def run (o : Options) (s : Session) : Out :=
  Out.next (asked o.stats (stats s)) (Out.next (asked o.dependencies (dependencies s))
    (Out.next (asked o.interactivity (interactivity s)) (Out.next (asked o.estimates (estimates s))
      (Out.next (asked o.validation (validation s)) (Out.next (asked o.requirements (requirementReport s))
        (Out.next (asked o.desired (desiredList s)) (asked o.runList (runListReport s))))))))

end Verif.Analyze
