import Verif.Model.Stream

/-!
# The text report

Models `TextSessionStateExporter` in `plainbox/impl/exporter/text.py` ("text" below), the metadata of outcomes in
`plainbox/impl/result.py` ("result") and `Colorizer.custom` in `plainbox/impl/color.py` ("color").

Simplifications: messages are not translated; every job of the run list has a state; the outcome of a result is any text.
-/

namespace Verif.Report

open Verif.Checksum (Str)
open Verif.Stream (encode)

/-- The parts of `OutcomeMetadata` that the exporter uses, result 85-111. -/
structure Meta where
  sigil : Str
  text : Str
  ansi : Str
deriving DecidableEq

/-- An escape sequence, result 119-182. -/
def esc (s : String) : Str := Char.ofNat 27 :: s.toList

/-- `OUTCOME_METADATA_MAP`, result 113-186; the keys are those of `plainbox/abc.py` 195-219, `OUTCOME_NONE` is `None`. -/
def table : List (Option Str × Meta) := [
  (none, ⟨" ".toList, "job didn't run".toList, []⟩),
  (some "pass".toList, ⟨"☑ ".toList, "job passed".toList, esc "[32;1m"⟩),
  (some "fail".toList, ⟨"☒ ".toList, "job failed".toList, esc "[31;1m"⟩),
  (some "skip".toList, ⟨"☐ ".toList, "job skipped".toList, esc "[33;1m"⟩),
  (some "not-supported".toList, ⟨"☐ ".toList, "job cannot be started".toList, esc "[33;1m"⟩),
  (some "not-implemented".toList, ⟨"-".toList, "job is not implemented".toList, esc "[31;1m"⟩),
  (some "undecided".toList, ⟨"⁇ ".toList, "job needs verification".toList, esc "[35;1m"⟩),
  (some "crash".toList, ⟨"⚠ ".toList, "job crashed".toList, esc "[41;37;1m"⟩)]

/-- `outcome_meta`, result 204-206; `none` is `KeyError`. -/
def outcomeMeta (o : Option Str) : Option Meta := (table.find? fun x => x.1 = o).map (·.2)

/-- What the exporter reads of the state of a job: whether the result is hollow (text 48), its outcome, the summary of the job,
the outcomes of the results before and including this one. (text 47-77) -/
structure Row where
  hollow : Bool
  outcome : Option Str
  summary : Str
  history : List (Option Str)
deriving DecidableEq

/-- `Colorizer.custom`, color 169-189; escape sequences of a colorizer that is off are empty, color 81-88. -/
def custom (on : Bool) (text ansi : Str) : Str :=
  (if on then ansi else []) ++ text ++ (if on then esc "[0m" else [])

/-- `'{:^15}'.format(text)`. (standard library; used in text 68) -/
def centre (text : Str) : Str :=
  List.replicate ((15 - text.length) / 2) ' ' ++ text ++ List.replicate (15 - text.length - (15 - text.length) / 2) ' '

/-- `', '.join(…)`. (standard library; used in text 60, 73) -/
def joinComma : List Str → Str
  | [] => []
  | [s] => s
  | s :: l => s ++ ", ".toList ++ joinComma l

/-- The texts of the outcomes of all results in a history; `none` is `KeyError`. (text 60-64, 73-76) -/
def all (f : Meta → Str) : List (Option Str) → Option (List Str)
  | [] => some []
  | o :: l => (outcomeMeta o).bind fun m => (all f l).map (f m :: ·)

/-- A hexadecimal digit. (standard library; used in text 73) -/
def hexDigit (n : Nat) : Char := if n < 10 then Char.ofNat (48 + n) else Char.ofNat (87 + n)

/-- A byte in `repr` of bytes, inside of these quotes. (standard library; used in text 73-77) -/
def reprByte (quote : Nat) (b : Nat) : Str :=
  if b = quote ∨ b = 92 then ['\\', Char.ofNat b]
  else if b = 9 then "\\t".toList
  else if b = 10 then "\\n".toList
  else if b = 13 then "\\r".toList
  else if b < 32 ∨ 127 ≤ b then ['\\', 'x', hexDigit (b / 16), hexDigit (b % 16)]
  else [Char.ofNat b]

/-- `str()` of bytes, as `print` uses it. (standard library; used in text 73) -/
def reprBytes (bs : List Nat) : Str :=
  let q := if 39 ∈ bs ∧ 34 ∉ bs then 34 else 39
  'b' :: Char.ofNat q :: bs.flatMap (reprByte q) ++ [Char.ofNat q]

/-- What was written to the stream, what was printed to the standard output, and whether an exception came out. (text 46-77) -/
structure Out where
  stream : List Nat
  stdout : Str
  raised : Bool
deriving DecidableEq

/-- One round of the loop with colours, text 51-65. -/
def colourRow (r : Row) : Out :=
  match outcomeMeta r.outcome with
  | none => ⟨[], [], true⟩
  | some m =>
    let line := encode (" ".toList ++ custom true m.sigil m.ansi ++ ": ".toList ++ r.summary ++ ['\n'])
    if r.history.length > 1 then
      match all (fun m => custom true m.text m.ansi) r.history with
      | none => ⟨line, [], true⟩
      | some l => ⟨line ++ encode ("  history: ".toList ++ joinComma l ++ ['\n']), [], false⟩
    else ⟨line, [], false⟩

/-- One round of the loop without colours, text 66-77. -/
def plainRow (r : Row) : Out :=
  match outcomeMeta r.outcome with
  | none => ⟨[], [], true⟩
  | some m =>
    let line := encode (centre m.text ++ ": ".toList ++ r.summary ++ ['\n'])
    if r.history ≠ [] then
      match all (fun m => custom false m.sigil m.ansi) r.history with
      | none => ⟨line, [], true⟩
      | some l => ⟨line, "History: ".toList ++ reprBytes (encode (joinComma l)) ++ ['\n'], false⟩
    else ⟨line, [], false⟩

/-- `dump`, text 46-77; `on` is `self.C.is_enabled`. -/
def dump (on : Bool) : List Row → Out
  | [] => ⟨[], [], false⟩
  | r :: l =>
    if r.hollow then dump on l
    else
      let a := if on then colourRow r else plainRow r
      if a.raised then a
      else
        let b := dump on l
        ⟨a.stream ++ b.stream, a.stdout ++ b.stdout, b.raised⟩

/-- The exporter as it is made by default: the colorizer is on if the standard output is a terminal (text 38-40, color 105-119 and
128-136), whatever the report is written to. -/
def report (isatty : Bool) (rows : List Row) : Out := dump isatty rows

end Verif.Report
