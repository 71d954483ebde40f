import Verif.Model.Text
import Verif.Basic

/-!
# I/O log records on disk

Models `IOLogRecordWriter` and `IOLogRecordReader` of `plainbox/impl/result.py` with the parts of
`json` and `base64` they use.

Simplifications: the delay is kept as the number token `json.dumps` writes for it (that `float`
reads back its own `repr` is trusted); `json.loads` is restricted to arrays of one number and two
strings written without blanks, anything else is an error; base64 text is decoded in complete groups
of four characters, anything else is an error; strings have no lone surrogates.
-/

namespace Verif.IOLog

open Verif.Text

/-- Texts, as lists of characters (result.py 499-557). -/
abbrev Str := List Char

/-! ## base64 -/

/-- The standard alphabet. (Standard library `base64`, used at result.py 509-545.) -/
def alphabet : List Char :=
  "ABCDEFGHIJKLMNOPQRSTUVWXYZabcdefghijklmnopqrstuvwxyz0123456789+/".toList

/-- Character of a six bit value. (Standard library `base64`, used at result.py 509-545.) -/
def enc6 (n : Nat) : Char := alphabet.getD n 'A'

/-- Six bit value of a character. (Standard library `base64`, used at result.py 509-545.) -/
def dec6 (c : Char) : Option Nat :=
  if alphabet.idxOf c < 64 then some (alphabet.idxOf c) else none

/-- `base64.standard_b64encode` (used at result.py 513). -/
def b64enc : List (Fin 256) → Str
  | [] => []
  | [a] => [enc6 (a.val / 4), enc6 (a.val % 4 * 16), '=', '=']
  | [a, b] => [enc6 (a.val / 4), enc6 (a.val % 4 * 16 + b.val / 16), enc6 (b.val % 16 * 4), '=']
  | a :: b :: c :: r =>
    enc6 (a.val / 4) :: enc6 (a.val % 4 * 16 + b.val / 16) ::
      enc6 (b.val % 16 * 4 + c.val / 64) :: enc6 (c.val % 64) :: b64enc r

/-- A byte from a number. (Standard library `base64`, used at result.py 509-545.) -/
def byte (n : Nat) : Fin 256 := ⟨n % 256, Nat.mod_lt _ (by decide)⟩

/-- `base64.standard_b64decode` (used at result.py 545) on complete groups. -/
def b64dec : Str → Option (List (Fin 256))
  | [] => some []
  | w :: x :: y :: z :: r =>
    match dec6 w, dec6 x with
    | some w, some x =>
      if y = '=' then
        if z = '=' ∧ r = [] then some [byte (w * 4 + x / 16)] else none
      else match dec6 y with
        | none => none
        | some y =>
          if z = '=' then
            if r = [] then some [byte (w * 4 + x / 16), byte (x % 16 * 16 + y / 4)] else none
          else match dec6 z, b64dec r with
            | some z, some bs =>
              some (byte (w * 4 + x / 16) :: byte (x % 16 * 16 + y / 4) :: byte (y % 4 * 64 + z) ::
                bs)
            | _, _ => none
    | _, _ => none
  | _ => none

/-! ## JSON strings -/

/-- Lower case hexadecimal digit. (Standard library `json`, used at result.py 509-545.) -/
def hexDigit (n : Nat) : Char := "0123456789abcdef".toList.getD n '0'

/-- Value of a hexadecimal digit (both cases are accepted when reading).
(Standard library `json`, used at result.py 509-545.) -/
def hexVal (c : Char) : Option Nat :=
  if "0123456789abcdef".toList.idxOf c < 16 then some ("0123456789abcdef".toList.idxOf c)
  else if "0123456789ABCDEF".toList.idxOf c < 16 then some ("0123456789ABCDEF".toList.idxOf c)
  else none

/-- `\uXXXX`. (Standard library `json`, used at result.py 509-545.) -/
def uEsc (n : Nat) : Str :=
  ['\\', 'u', hexDigit (n / 4096 % 16), hexDigit (n / 256 % 16), hexDigit (n / 16 % 16),
    hexDigit (n % 16)]

/-- One character as `json.dumps(..., ensure_ascii=True)` writes it (result.py 511-515). -/
def escChar (c : Char) : Str :=
  if c = '"' then ['\\', '"']
  else if c = '\\' then ['\\', '\\']
  else if c = '\n' then ['\\', 'n']
  else if c = '\r' then ['\\', 'r']
  else if c = '\t' then ['\\', 't']
  else if c = '\x0c' then ['\\', 'f']
  else if c = '\x08' then ['\\', 'b']
  else if 32 ≤ c.toNat ∧ c.toNat ≤ 126 then [c]
  else if c.toNat < 65536 then uEsc c.toNat
  else uEsc (55296 + (c.toNat - 65536) / 1024) ++ uEsc (56320 + (c.toNat - 65536) % 1024)

/-- A JSON string literal. (Standard library `json`, used at result.py 509-545.) -/
def jsonStr (s : Str) : Str := '"' :: ((s.map escChar).flatten ++ ['"'])

/-- Four hexadecimal digits. (Standard library `json`, used at result.py 509-545.) -/
def hex4 (a b c d : Char) : Option Nat :=
  match hexVal a, hexVal b, hexVal c, hexVal d with
  | some a, some b, some c, some d => some (a * 4096 + b * 256 + c * 16 + d)
  | _, _, _, _ => none

/-- A character from its code point; lone surrogates do not exist in this model.
(Standard library `json`, used at result.py 509-545.) -/
def chr? (n : Nat) : Option Char := if n.isValidChar then some (Char.ofNat n) else none

/-- The second half of a surrogate pair (`json.decoder.py_scanstring`).
(Standard library `json`, used at result.py 509-545.) -/
def lowSurrogate (hi : Nat) : Str → Option (Char × Str)
  | x :: y :: a :: b :: c :: d :: r =>
    if x = '\\' ∧ y = 'u' then
      match hex4 a b c d with
      | none => none
      | some lo =>
        if 56320 ≤ lo ∧ lo ≤ 57343 then
          (chr? (65536 + (hi - 55296) * 1024 + (lo - 56320))).map fun ch => (ch, r)
        else none
    else none
  | _ => none

/-- What follows `\u`. (Standard library `json`, used at result.py 509-545.) -/
def unicodeEsc : Str → Option (Char × Str)
  | a :: b :: c :: d :: r =>
    match hex4 a b c d with
    | none => none
    | some n =>
      if 55296 ≤ n ∧ n ≤ 56319 then lowSurrogate n r
      else (chr? n).map fun ch => (ch, r)
  | _ => none

/-- The one-character escapes (`json.decoder.BACKSLASH`). (Standard library `json`, used at result.py 509-545.) -/
def backslash : List (Char × Char) :=
  [('"', '"'), ('\\', '\\'), ('/', '/'), ('b', '\x08'), ('f', '\x0c'), ('n', '\n'), ('r', '\r'),
   ('t', '\t')]

/-- What follows a backslash. (Standard library `json`, used at result.py 509-545.) -/
def escape : Str → Option (Char × Str)
  | [] => none
  | c :: r => if c = 'u' then unicodeEsc r else (backslash.lookup c).map fun ch => (ch, r)

/-- The rest of a JSON string literal after the opening quote: contents and the text after the
closing quote (`json.decoder.py_scanstring`).  The fuel is the length of the text.
(Standard library `json`, used at result.py 509-545.) -/
def scanStrF : Nat → Str → Option (Str × Str)
  | 0, _ => none
  | _, [] => none
  | n + 1, c :: r =>
    if c = '"' then some ([], r)
    else if c = '\\' then
      match escape r with
      | none => none
      | some (ch, r') => (scanStrF n r').map fun x => (ch :: x.1, x.2)
    else if c.toNat < 32 then none
    else (scanStrF n r).map fun x => (c :: x.1, x.2)

/-- `scanStrF` with enough fuel. (Standard library `json`, used at result.py 509-545.) -/
def scanStr (l : Str) : Option (Str × Str) := scanStrF l.length l

/-! ## Records -/

/-- Characters of number tokens, including `NaN` and `Infinity`.
(Standard library `json`, used at result.py 509-545.) -/
def isNumChar (c : Char) : Bool := c.isAlphanum || c == '+' || c == '-' || c == '.'

/-- A log record (abc/`IOLogRecord`): delay token, stream name, data. (result.py 77) -/
structure Rec where
  delay : Str
  stream : Str
  data : List (Fin 256)
deriving DecidableEq, Repr

/-- `IOLogRecordWriter.write_record` (result.py 509-519), text including the final newline. -/
def write (r : Rec) : Str :=
  '[' :: (r.delay ++ ',' :: (jsonStr r.stream ++ ',' :: (jsonStr (b64enc r.data) ++ [']', '\n'])))

/-- `json.loads` of one line and the construction of the record (result.py 542-545). -/
def parse (line : Str) : Option Rec :=
  match line with
  | '[' :: r =>
    let d := r.takeWhile isNumChar
    match r.dropWhile isNumChar with
    | ',' :: '"' :: r =>
      match scanStr r with
      | some (s, ',' :: '"' :: r) =>
        match scanStr r with
        | some (b, ']' :: r) =>
          match b64dec b with
          | some bs => if d ≠ [] ∧ strip r = [] then some ⟨d, s, bs⟩ else none
          | none => none
        | _ => none
      | _ => none
    | _ => none
  | _ => none

/-- `IOLogRecordReader.__iter__` over a stream (result.py 549-557): lines until the end. -/
def readAll (text : Str) : Option (List Rec) := (linesKeep text).mapM parse

/-- Writing records one after the other. (result.py 509-519, called for each record.) -/
def writeAll (rs : List Rec) : Str := (rs.map write).flatten

end Verif.IOLog
