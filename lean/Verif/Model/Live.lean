import Verif.Model.Extcmd
import Verif.Model.Flat

/-!
# The output of a command on the terminal

Models what the user sees while a command runs: `NormalUI` (`plainbox/impl/commands/inv_run.py`, "run") behind
`JobRunnerUIDelegate`, and `FallbackCommandOutputPrinter` (`plainbox/impl/runner.py`, "runner"), which is used by
`plainbox dev script`; with the colours of `plainbox/impl/color.py` ("color"). What they are told comes from the model `Extcmd`.

Simplified: the terminal accepts every character; texts are not translated.
-/

namespace Verif.Live

open Verif.Checksum (Str)
open Verif.Extcmd (Stream Ev Bytes)

/-- `bytes.decode("UTF-8", "ignore")`: what is not UTF-8 is left out, also a character that is cut off at the end. The first argument
bounds the number of steps. (standard library; used in run 203-207) -/
def skip : Nat → List Nat → Str
  | 0, _ => []
  | fuel + 1, bs =>
    match Flat.first bs with
    | none => []
    | some (none, n) => skip fuel (bs.drop n)
    | some (some c, n) => c :: skip fuel (bs.drop n)

/-- `line.decode("UTF-8", "ignore")`, run 203, 206. -/
def ignore (d : Bytes) : Str := skip d.length (d.map (·.val))

/-- The settings of `NormalUI`: are colours on, is the output of commands to be shown. (run 165-168) -/
structure UI where
  color : Bool
  showing : Bool

/-- An ANSI sequence; nothing if colours are off. (color 81-87) -/
def sgr (u : UI) (n : Str) : Str := if u.color then "\x1b[".toList ++ n ++ "m".toList else []

/-- `Colorizer.__call__` with `bright`, color 159-163. -/
def paint (u : UI) (n text : Str) : Str := sgr u n ++ sgr u "1".toList ++ text ++ sgr u "0".toList

/-- `text.ljust(80, '-')`. (standard library; used in run 190) -/
def ljust (t : Str) : Str := t ++ List.replicate (80 - t.length) '-'

/-- `text.rjust(80, '-')`. (standard library; used in run 213) -/
def rjust (t : Str) : Str := List.replicate (80 - t.length) '-' ++ t

/-- What `NormalUI` prints, and where: `about_to_execute_program`, `got_program_output` and `finished_executing_program`, run
188-213, as called by `JobRunnerUIDelegate`, runner 215-261. Nothing is printed about interrupts. -/
def printed (u : UI) : Ev → List (Stream × Str)
  | .begin =>
    if u.showing then [(.out, paint u "30".toList (ljust "... 8< -".toList) ++ ['\n'])]
    else [(.out, paint u "30".toList "(Command output hidden)".toList ++ ['\n'])]
  | .line s d | .chunk s d =>
    if u.showing then
      match s with
      | .out => [(.out, paint u "32".toList (ignore d))]
      | .err => [(.err, paint u "31".toList (ignore d))]
    else []
  | .ended _ | .abnormal _ =>
    if u.showing then [(.out, paint u "30".toList (rjust "- >8 ---".toList) ++ ['\n'])] else []
  | .interrupt => []

/-- All that `NormalUI` prints to a stream while a command runs. (run 188-213) -/
def screen (u : UI) (s : Stream) (log : List Ev) : Str :=
  (((log.flatMap (printed u)).filter fun p => p.1 = s).map (·.2)).flatten

/-- `FallbackCommandOutputPrinter`: `_lineno` and `_abort`. (runner 167-171) -/
structure Printer where
  out : Nat
  err : Nat
  stopped : Bool
deriving DecidableEq

/-- A new printer. (runner 167-171) -/
def Printer.new : Printer := ⟨0, 0, false⟩

/-- `"{:05}".format(n)`. (standard library; used in runner 184) -/
def five (n : Nat) : Str := List.replicate (5 - (toString n).toList.length) '0' ++ (toString n).toList

/-- `FallbackCommandOutputPrinter.on_line`, runner 173-189: the printer afterwards and what is printed. -/
def Printer.onLine (p : Printer) (job : Str) (s : Stream) (d : Bytes) : Printer × List Str :=
  if p.stopped then (p, [])
  else
    let q : Printer :=
      match s with
      | .out => { p with out := p.out + 1 }
      | .err => { p with err := p.err + 1 }
    match Stream.decode (d.map (·.val)) with
    | none => ({ q with stopped := true }, [])
    | some t =>
      let name := match s with
        | .out => "stdout".toList
        | .err => "stderr".toList
      let n := match s with
        | .out => q.out
        | .err => q.err
      (q, ["(job ".toList ++ job ++ ", <".toList ++ name ++ ":".toList ++ five n ++ ">) ".toList ++ Text.rstrip t])

/-- The lines that `FallbackCommandOutputPrinter` prints while a command runs; all other methods are those of `DelegateBase`,
which do nothing. (runner 158-189) -/
def fallback (job : Str) : Printer → List Ev → List Str
  | _, [] => []
  | p, .line s d :: l =>
    let r := p.onLine job s d
    r.2 ++ fallback job r.1 l
  | p, _ :: l => fallback job p l

end Verif.Live
