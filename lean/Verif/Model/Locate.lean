import Verif.Model.Origin
import Verif.Model.Path
import Verif.Model.Text

/-!
# Where problems are said to be

Models `Origin.__str__` and `Origin.relative_to` with the sources of text, in `plainbox/impl/secure/origin.py` ("origin" below),
`Issue.__str__` and `Issue.relative_to` in `plainbox/impl/validation.py` ("validation"), and the functions of `os.path` that they use.

Simplifications: messages are not translated; numbers of lines are not negative; symbolic links are not looked at, as
`os.path.relpath` does not look at them either.
-/

namespace Verif.Locate

open Verif.Path (Str join)

/-! ## `os.path` -/

/-- The loop of `os.path.normpath` over the components of a path that begins with a slash (standard library, behind origin 278);
`acc` is `new_comps`. That path is absolute, so `..` at the beginning is dropped. -/
def collapse : List Str → List Str → List Str
  | acc, [] => acc
  | acc, c :: cs =>
    if c = [] ∨ c = ['.'] then collapse acc cs
    else if c ≠ ['.', '.'] then collapse (acc ++ [c]) cs
    else collapse acc.dropLast cs

/-- The components of `os.path.abspath(path)` that are not empty (standard library, behind origin 278). -/
def parts (cwd path : Str) : List Str := collapse [] (Text.splitOn '/' (join cwd path))

/-- How many components two lists have in common at the beginning (standard library, `commonprefix`, behind origin 278). -/
def common : List Str → List Str → Nat
  | a :: as, b :: bs => if a = b then common as bs + 1 else 0
  | _, _ => 0

/-- `'/'.join(parts)` (standard library, behind origin 278; `join` of components that do not begin or end with slashes). -/
def slashed (l : List Str) : Str := Text.joinWith '/' l

/-- `os.path.relpath(path, start)` (standard library, used in origin 278); `none` is `ValueError`. An empty `start` is the current
directory. -/
def relpath (cwd path start : Str) : Option Str :=
  if path = [] then none
  else
    let a := parts cwd start
    let b := parts cwd path
    let i := common a b
    let rel := List.replicate (a.length - i) ['.', '.'] ++ b.drop i
    some (if rel = [] then ['.'] else slashed rel)

/-! ## Sources and origins -/

/-- Sources of text, origin 204-385: `shown` of an argument of the command line is what `!a` makes of its value. -/
inductive Source
  | unknown
  | file (python : Bool) (name : Str)
  | job (id : Str)
  | argument (name : Option Str) (shown : Str)
deriving DecidableEq

/-- `__str__` of sources, origin 216-217, 250-251, 314-315 and 352-357. -/
def Source.str : Source → Str
  | .unknown => "???".toList
  | .file _ n => n
  | .job i => i
  | .argument (some n) v => "command line argument ".toList ++ n ++ '=' :: v
  | .argument none v => "command line argument ".toList ++ v

/-- `relative_to` of sources, origin 234-235, 268-278, 330-331 and 384-385; `none` is `ValueError`. -/
def Source.relativeTo (cwd base : Str) : Source → Option Source
  | .file p n => (relpath cwd n base).map (.file p)
  | s => some s

/-- An origin, with numbers of lines. (origin 45-72) -/
abbrev Place := Origin.Origin Source

/-- A number of a line or `None` in a text. (origin 103-106) -/
def line : Option Int → Str
  | none => "None".toList
  | some n => (if n < 0 then ['-'] else []) ++ Nat.toDigits 10 n.natAbs

/-- `Origin.__str__`, origin 98-108. -/
def show' (o : Place) : Str :=
  match o.mode with
  | .wholeFile => o.source.str
  | .singleLine => o.source.str ++ ':' :: line o.lineStart
  | .lineRange => o.source.str ++ ':' :: line o.lineStart ++ '-' :: line o.lineEnd

/-- `Origin.relative_to`, origin 110-128; whether it is the same object does not matter. -/
def relativeTo (cwd base : Str) (o : Place) : Option Place :=
  (o.source.relativeTo cwd base).map fun s => ⟨s, o.lineStart, o.lineEnd⟩

/-! ## Issues -/

/-- `Severity`, validation 56-62. -/
inductive Severity
  | error
  | warning
  | advice
deriving DecidableEq

/-- `_(str(severity))`, validation 60-62 and 89. -/
def Severity.str : Severity → Str
  | .error => "error".toList
  | .warning => "warning".toList
  | .advice => "advice".toList

/-- An escape sequence; none if the standard output is no terminal. (`plainbox/impl/color.py` 84-91 and 105-117) -/
def esc (tty : Bool) (code : String) : Str := if tty then Char.ofNat 27 :: '[' :: code.toList ++ ['m'] else []

/-- The severity with its colour, validation 89-98; the codes are in `plainbox/impl/color.py` 33-69. -/
def coloured (tty : Bool) : Severity → Str
  | .error => esc tty "31" ++ esc tty "1" ++ Severity.error.str ++ esc tty "0"
  | .warning => esc tty "33" ++ Severity.warning.str ++ esc tty "0"
  | .advice => esc tty "34" ++ Severity.advice.str ++ esc tty "0"

/-- `Issue`, validation 65-84, without the kind, which is not shown. -/
structure Issue where
  message : Str
  severity : Severity
  origin : Option Place
deriving DecidableEq

/-- `Issue.__str__`, validation 86-104. -/
def Issue.str (tty : Bool) (i : Issue) : Str :=
  match i.origin with
  | some o => coloured tty i.severity ++ ": ".toList ++ show' o ++ ": ".toList ++ i.message
  | none => i.severity.str ++ ": ".toList ++ i.message

/-- `Issue.relative_to`, validation 112-116; `none` is `ValueError`. -/
def Issue.relativeTo (cwd base : Str) (i : Issue) : Option Issue :=
  match i.origin with
  | none => some i
  | some o => (Locate.relativeTo cwd base o).map fun p => { i with origin := some p }

end Verif.Locate
