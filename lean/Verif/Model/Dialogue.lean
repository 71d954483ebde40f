/-!
# The dialogue of `plainbox run`

Models `ActionUI.run`, `_run_single_job_with_ui_loop` and `_interaction_callback` of
`plainbox/impl/commands/inv_run.py`, and `JobResultBuilder.add_comment` and `get_builder` of
`plainbox/impl/result.py`.

The answers of the user are a list of lines, after which the input ends.  Running a job is a sequence of
results, the n-th for the n-th time it is run.  A list of events is kept so that one can speak about what
happened.  Left out: what is printed, interruption by a signal, exceptions of the runner.
-/

namespace Verif.Dialogue

/-- Texts, as lists of characters (inv_run.py 67-104, 898-970). -/
abbrev Str := List Char

/-- Outcomes (`IJobResult`, plainbox/abc.py). (abc.py 195-219) -/
inductive Outcome
  | pass | fail | skip | undecided | notSupported | crash
  deriving DecidableEq, Repr

/-- A result, or the builder of one (result.py 209-231); `rest` is what the dialogue does not touch (the log
of the program), `none` for a builder made from scratch. -/
structure Result (L : Type) where
  outcome : Option Outcome
  comments : Option Str
  code : Option Int
  rest : Option L
  deriving DecidableEq, Repr

/-- `add_comment` (result.py 233-242). -/
def addComment (old : Option Str) (c : Str) : Option Str :=
  match old with
  | none => some c
  | some o => some (o ++ '\n' :: c)

/-- The commands of the first prompt (inv_run.py 179-184). -/
inductive PCmd
  | run | comment | skip | quit
  deriving DecidableEq, Repr

/-- The commands of the second prompt (907-935). -/
inductive CCmd
  | comments | pass | fail | skip | rerun | suggested
  deriving DecidableEq, Repr

/-- Plug-ins, as far as this matters. (inv_run.py 807-863) -/
inductive Plugin
  | userInteract | userInteractVerify | userVerify | manual | other
  deriving DecidableEq, Repr

/-- What happened: the job was run, a command was picked at a prompt (`none` at the end of input), a line was
entered before or after running. (No counterpart in the code.) -/
inductive Ev
  | ran (n : Nat)
  | asked (c : Option PCmd)
  | chose (c : Option CCmd)
  | note (s : Str)
  | typed (s : Str)
  deriving DecidableEq, Repr

/-- Everything around the dialogue: the (translated) labels of commands, `is_interactive`, the job, its runs.
(inv_run.py 353-359, 807-970) -/
structure World (L : Type) where
  plabel : PCmd → Str
  clabel : CCmd → Str
  interactive : Bool
  plugin : Plugin
  hasCommand : Bool
  explicitFail : Bool
  runs : Nat → Result L
  skipText : Str

/-- The answers not read yet, how often the job was run, the events.
(Standard input, read in inv_run.py 87-104, 898-970.) -/
structure St where
  input : List Str
  n : Nat
  ev : List Ev
  deriving DecidableEq, Repr

/-- An action: shortcut, label, command (`Action`, 64). -/
abbrev Action (C : Type) := Str × Str × C

/-- The loop over actions in `ActionUI.run` (102-104). -/
def matching {C : Type} (l : Str) : List (Action C) → Option C
  | [] => none
  | (a, b, c) :: acts => if l = a ∨ l = b then some c else matching l acts

/-- `ActionUI.run` (87-104): the command and the rest of the answers. -/
def pick {C : Type} (acts : List (Action C)) : List Str → Option C × List Str
  | [] => (none, [])
  | l :: ls =>
    match matching l acts with
    | some c => (some c, ls)
    | none => pick acts ls

variable {L : Type} (w : World L)

/-- The actions of `wait_for_interaction_prompt` (178-184). -/
def promptActs : List (Action PCmd) :=
  [([], w.plabel .run, .run), ("c".toList, w.plabel .comment, .comment), ("s".toList, w.plabel .skip, .skip),
   ("q".toList, w.plabel .quit, .quit)]

/-- The actions of `_interaction_callback` (907-935); no caller gives other allowed outcomes. -/
def callbackActs (code : Option Int) : List (Action CCmd) :=
  [("c".toList, w.clabel .comments, .comments), ("p".toList, w.clabel .pass, .pass),
   ("f".toList, w.clabel .fail, .fail), ("s".toList, w.clabel .skip, .skip)] ++
  (if w.hasCommand then [("r".toList, w.clabel .rerun, .rerun)] else []) ++
  (if code.isSome then [([], w.clabel .suggested, .suggested)] else [])

/-- The suggested outcome (928-932). -/
def suggested (code : Option Int) : Outcome := if code = some 0 then .pass else .fail

/-- Whether an outcome is allowed (903-906). -/
def allowed (o : Option Outcome) : Bool := o = some .pass || o = some .fail || o = some .skip

/-- How `_interaction_callback` ends: a result, `ReRunJob`, `EOFError`; the last stands for running out of
fuel. (inv_run.py 898-970) -/
inductive CB (L : Type)
  | ok (b : Result L) (s : St)
  | rerun (s : St)
  | eof (s : St)
  | stuck
  deriving DecidableEq, Repr

/-- Add a comment that is not empty (956-957, 966-967). -/
def withComment (b : Result L) (c : Str) : Result L :=
  if c = [] then b else { b with comments := addComment b.comments c }

/-- The loop of `_interaction_callback` (936-970). -/
def callback : Nat → St → Result L → CB L
  | 0, _, _ => .stuck
  | k + 1, s, b =>
    if allowed b.outcome then .ok b s
    else
      let r := pick (callbackActs w b.code) s.input
      let s1 : St := { s with input := r.2, ev := s.ev ++ [.chose r.1] }
      match r.1 with
      | some .pass => callback k s1 { b with outcome := some .pass }
      | some .fail =>
        if w.explicitFail then
          match s1.input with
          | [] => .eof s1
          | l :: ls =>
            callback k { s1 with input := ls, ev := s1.ev ++ [.typed l] }
              { withComment b l with outcome := some .fail }
        else callback k s1 { b with outcome := some .fail }
      | some .skip => callback k s1 { b with outcome := some .skip }
      | none => callback k s1 { b with outcome := some .skip }
      | some .suggested => callback k s1 { b with outcome := some (suggested b.code) }
      | some .comments =>
        match s1.input with
        | [] => .eof s1
        | l :: ls => callback k { s1 with input := ls, ev := s1.ev ++ [.typed l] } (withComment b l)
      | some .rerun => .rerun s1

/-- How `_run_single_job_with_ui_loop` ends: a result builder, `SystemExit`, `EOFError`. (inv_run.py 807-863) -/
inductive R (L : Type)
  | done (b : Result L) (s : St)
  | quit (s : St)
  | eof (s : St)
  | stuck
  deriving DecidableEq, Repr

/-- Whether the steps are shown and the user is asked first (813-816). -/
def prompts : Bool :=
  w.interactive && (w.plugin == .userInteract || w.plugin == .userInteractVerify || w.plugin == .manual)

/-- `runner.run_job` (823, 845, 850). -/
def ranSt (s : St) : St := { s with n := s.n + 1, ev := s.ev ++ [.ran s.n] }

/-- The part of the loop after running (852-863); `again` is the next round. -/
def after (again : St → R L) (comments : Str) (s : St) (b : Result L) : R L :=
  if w.interactive && b.outcome = some .undecided then
    match callback w (s.input.length + 2) s (if comments = [] then b else { b with comments := some comments }) with
    | .ok b s => .done b s
    | .rerun s => again s
    | .eof s => .eof s
    | .stuck => .stuck
  else .done b s

/-- A job is run from the first prompt (822-825): `get_builder(comments=comments)`. -/
def runPrompted (again : St → R L) (comments : Str) (s : St) : R L :=
  after w again comments (ranSt s) { w.runs s.n with comments := some comments }

/-- `_run_single_job_with_ui_loop` (807-863). -/
def loop : Nat → St → Str → R L
  | 0, _, _ => .stuck
  | k + 1, s, comments =>
    if prompts w then
      if w.plugin = .manual then runPrompted w (fun s => loop k s comments) comments s
      else
        let r := pick (promptActs w) s.input
        let s1 : St := { s with input := r.2, ev := s.ev ++ [.asked r.1] }
        match r.1 with
        | some .run => runPrompted w (fun s => loop k s comments) comments s1
        | none => runPrompted w (fun s => loop k s comments) comments s1
        | some .comment =>
          match s1.input with
          | [] => .eof s1
          | l :: ls =>
            loop k { s1 with input := ls, ev := s1.ev ++ [.note l] }
              (if l = [] then comments else comments ++ (l ++ ['\n']))
        | some .skip =>
          .done ⟨some .skip, some (if comments = [] then w.skipText else comments), none, none⟩ s1
        | some .quit => .quit s1
    else after w (fun s => loop k s comments) comments (ranSt s) (w.runs s.n)

/-- The whole dialogue about a job (780-781). -/
def dialogue (answers : List Str) : R L := loop w (answers.length + 1) ⟨answers, 0, []⟩ []

end Verif.Dialogue
