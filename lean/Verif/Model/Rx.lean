/-!
# Regular expressions used as patterns in the code

`re.compile(pattern).match(text)` of the standard library, for the constructs that the patterns of
`plainbox/impl/secure/providers/v1.py` use.  A pattern is given as a tree; `rests` computes what is left of
the text after every way of matching a beginning of it, by backtracking.  `^` at the start of a pattern
given to `match` does nothing and is left out.
-/

namespace Verif.Rx

/-- Texts that are matched (secure/config.py:779-797). -/
abbrev Str := List Char

/-- Patterns: nothing, a character of a class, one after the other, alternatives, repetition, `$`.
(standard library; secure/config.py:779-797, secure/providers/v1.py:1073-1178) -/
inductive Rx
  | eps
  | cls (p : Char → Bool)
  | seq (a b : Rx)
  | alt (a b : Rx)
  | star (a : Rx)
  | eol

/-- Repetition of a matcher; a round that matches nothing is not continued.
(standard library; secure/config.py:779-797, secure/providers/v1.py:1073-1178) -/
def starRests (f : Str → List Str) : Nat → Str → List Str
  | 0, s => [s]
  | n + 1, s => s :: (f s).flatMap fun t => if t.length < s.length then starRests f n t else []

/-- What can be left of the text after a match at its start.
(standard library; secure/config.py:779-797, secure/providers/v1.py:1073-1178) -/
def rests : Rx → Str → List Str
  | .eps => fun s => [s]
  | .cls p => fun s => match s with
    | [] => []
    | c :: s => if p c then [s] else []
  | .seq a b => fun s => (rests a s).flatMap (rests b)
  | .alt a b => fun s => rests a s ++ rests b s
  | .star a => fun s => starRests (rests a) s.length s
  | .eol => fun s => if s = [] ∨ s = ['\n'] then [s] else []

/-- `pattern.match(text)` is not `None`.
(standard library; secure/config.py:779-797, secure/providers/v1.py:1073-1178) -/
def accepts (r : Rx) (s : Str) : Bool := !(rests r s).isEmpty

/-- `c`. (standard library; secure/config.py:779-797, secure/providers/v1.py:1073-1178) -/
def chr (c : Char) : Rx := .cls (fun d => decide (d = c))

/-- `a?`. (standard library; secure/config.py:779-797, secure/providers/v1.py:1073-1178) -/
def opt (a : Rx) : Rx := .alt a .eps

/-- `a+`. (standard library; secure/config.py:779-797, secure/providers/v1.py:1073-1178) -/
def plus (a : Rx) : Rx := .seq a (.star a)

/-- A word. (standard library; secure/config.py:779-797, secure/providers/v1.py:1073-1178) -/
def word : Str → Rx
  | [] => .eps
  | c :: s => .seq (chr c) (word s)

/-- `a|b|…` of words. (standard library; secure/config.py:779-797, secure/providers/v1.py:1073-1178) -/
def words : List Str → Rx
  | [] => .cls fun _ => false
  | [w] => word w
  | w :: ws => .alt (word w) (words ws)

/-- One after the other. (standard library; secure/config.py:779-797, secure/providers/v1.py:1073-1178) -/
def cat : List Rx → Rx
  | [] => .eps
  | [a] => a
  | a :: l => .seq a (cat l)

end Verif.Rx
