import Verif.Basic

/-! # Python string operations on lists of characters, shared by several models -/

namespace Verif.Text

/-- `str.isspace()` on one character, which is also what `\s` matches and `str.strip` removes.
Standard library; used e.g. in rfc822.py:49-53. -/
def isSpace (c : Char) : Bool :=
  let n := c.toNat
  (9 ≤ n && n ≤ 13) || (28 ≤ n && n ≤ 32) || n == 0x85 || n == 0xa0 || n == 0x1680 ||
  (0x2000 ≤ n && n ≤ 0x200a) || n == 0x2028 || n == 0x2029 || n == 0x202f || n == 0x205f ||
  n == 0x3000

/-- `str.lstrip()`. Standard library; used e.g. in rfc822.py:53 (through `strip`). -/
def lstrip (l : List Char) : List Char := l.dropWhile isSpace

/-- `str.rstrip()`. Standard library; used e.g. in rfc822.py:53 (through `strip`). -/
def rstrip (l : List Char) : List Char := (l.reverse.dropWhile isSpace).reverse

/-- `str.strip()`. Standard library; used e.g. in rfc822.py:53. -/
def strip (l : List Char) : List Char := rstrip (lstrip l)

/-- `str.split(sep)` for a one character separator: at least one part.
Standard library; used e.g. in rfc822.py:49 (lines of a text), transport.py:106. -/
def splitOn (sep : Char) : List Char → List (List Char)
  | [] => [[]]
  | c :: l =>
    if c = sep then [] :: splitOn sep l
    else
      match splitOn sep l with
      | [] => [[c]]
      | p :: ps => (c :: p) :: ps

/-- `sep.join(parts)` for a one character separator.
Standard library; used e.g. in rfc822.py and job.py for the lines of a text.
(the lines of a value: rfc822.py 44-54, in `normalize_rfc822_value`) -/
def joinWith (sep : Char) : List (List Char) → List Char
  | [] => []
  | [p] => p
  | p :: ps => p ++ sep :: joinWith sep ps

/-- Iteration over the lines of a text stream: every line keeps its `\n`.
Standard library; used e.g. in rfc822.py:240-400 (the loop of `gen_rfc822_records`). -/
def linesKeep : List Char → List (List Char)
  | [] => []
  | c :: l =>
    if c = '\n' then ['\n'] :: linesKeep l
    else
      match linesKeep l with
      | [] => [[c]]
      | p :: ps => (c :: p) :: ps

end Verif.Text
