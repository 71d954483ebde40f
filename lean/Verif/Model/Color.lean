/-!
# Coloured output

Models `plainbox/impl/color.py` ("color"): the escape sequences and `Colorizer`, and the escape sequences of outcomes in
`plainbox/impl/result.py` ("result"). Names of colours are in ASCII; palettes other than `ansi_on` and `ansi_off` are not modelled.
-/

namespace Verif.Color

/-- Texts. (standard library) -/
abbrev Str := List Char

/-- The character `\033`. (color 89) -/
def ESC : Char := Char.ofNat 27

/-- `ansi_on.f`, color 33-46. -/
def fTable : List (Str × Nat) := [
  ("BLACK".toList, 30), ("RED".toList, 31), ("GREEN".toList, 32), ("YELLOW".toList, 33), ("BLUE".toList, 34),
  ("MAGENTA".toList, 35), ("CYAN".toList, 36), ("WHITE".toList, 37), ("RESET".toList, 39)]

/-- `ansi_on.b`, color 48-61. -/
def bTable : List (Str × Nat) := [
  ("BLACK".toList, 40), ("RED".toList, 41), ("GREEN".toList, 42), ("YELLOW".toList, 44), ("BLUE".toList, 44),
  ("MAGENTA".toList, 45), ("CYAN".toList, 46), ("WHITE".toList, 47), ("RESET".toList, 49)]

/-- `ansi_on.s`, color 63-70. -/
def sTable : List (Str × Nat) := [
  ("BRIGHT".toList, 1), ("DIM".toList, 2), ("NORMAL".toList, 22), ("RESET_ALL".toList, 0)]

/-- A colorizer: whether its palette is the object `ansi_on` as it was defined, and whether the name `ansi_on` was bound to `ansi_off`
afterwards, as it is on Windows without colorama. (color 94-102, 127-135) -/
structure Colorizer where
  on : Bool
  crippled : Bool
deriving DecidableEq, Repr

/-- The argument of `Colorizer`: `True`, `False` or `None`. (color 127) -/
inductive Arg
  | yes | no | unset
deriving DecidableEq, Repr

/-- `Colorizer.__init__` and `get_color_for_tty`, color 114-117, 127-135. -/
def mk (crippled tty : Bool) : Arg → Colorizer
  | .yes => ⟨!crippled, crippled⟩
  | .no => ⟨false, crippled⟩
  | .unset => ⟨tty && !crippled, crippled⟩

/-- `Colorizer.is_enabled`, color 137-145. -/
def Colorizer.enabled (c : Colorizer) : Bool := c.on || c.crippled

/-- `"\033[%sm" % n` or the empty text. (color 84-91) -/
def Colorizer.seq (c : Colorizer) (n : Nat) : Str :=
  if c.on then ESC :: '[' :: (Nat.toDigits 10 n ++ ['m']) else []

/-- `getattr(…, name.upper())`; `none` is `AttributeError`. (color 154-161) -/
def Colorizer.attr (c : Colorizer) (t : List (Str × Nat)) (name : Str) : Option Str :=
  (t.lookup (name.map Char.toUpper)).map c.seq

/-- `Colorizer.__call__`, color 163-167. -/
def Colorizer.call (c : Colorizer) (text name : Str) (bright : Bool) : Option Str :=
  match c.attr fTable name with
  | none => none
  | some f => some (f ++ (if bright then c.seq 1 else []) ++ text ++ c.seq 0)

/-- `Colorizer.custom`, color 169-190. -/
def Colorizer.custom (c : Colorizer) (text ansi : Str) : Str :=
  (if c.enabled then ansi else []) ++ text ++ c.seq 0

/-- `str.center`. (standard library; color 152) -/
def center (width : Nat) (fill : Char) (s : Str) : Str :=
  let pad := width - s.length
  let left := pad / 2 + (if pad % 2 = 1 ∧ width % 2 = 1 then 1 else 0)
  List.replicate left fill ++ s ++ List.replicate (pad - left) fill

/-- `Colorizer.header`, color 151-152. -/
def Colorizer.header (c : Colorizer) (text name : Str) (bright : Bool) (fill : Char) : Option Str :=
  c.call (center 80 fill ("[ ".toList ++ text ++ " ]".toList)) name bright

/-- `color_ansi` of the outcomes, result 113-186. -/
def outcomeAnsi : List (Option Str × Str) := [
  (none, []),
  (some "pass".toList, ESC :: "[32;1m".toList),
  (some "fail".toList, ESC :: "[31;1m".toList),
  (some "skip".toList, ESC :: "[33;1m".toList),
  (some "not-supported".toList, ESC :: "[33;1m".toList),
  (some "not-implemented".toList, ESC :: "[31;1m".toList),
  (some "undecided".toList, ESC :: "[35;1m".toList),
  (some "crash".toList, ESC :: "[41;37;1m".toList)]

/-- `Colorizer.result`, color 147-149; `trOutcome` is `result.tr_outcome()`, `none` is `KeyError`. -/
def Colorizer.result (c : Colorizer) (trOutcome : Str) (outcome : Option Str) : Option Str :=
  (outcomeAnsi.lookup outcome).map (c.custom trOutcome)

end Verif.Color
