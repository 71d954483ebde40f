import Verif.Model.Rx

/-! # The comments of results

Models `comments` and `add_comment` (`plainbox/impl/result.py`, "result") and what happens to the comments when a session is
suspended and resumed (`plainbox/impl/session/suspend.py`, "suspend", `resume.py`, "resume").

Simplified: replacing is modelled for patterns that match no empty text, as the one that is used here. The list of possible
matches of `Rx.rests` is not in the order in which Python tries them; for the pattern that is used here there is at most one
(shown in `Props/Comments.lean`). The text is stored and loaded as it is (C22, C24). -/

namespace Verif.Comments

open Verif.Rx (Rx Str)

/-- `[a-b]` of a regular expression. (standard library; result 65) -/
def range (a b : Char) : Rx := .cls fun c => decide (a.toNat ≤ c.toNat) && decide (c.toNat ≤ b.toNat)

/-- `ANSI_ESCAPE_SEQ_RE_STR`, result 65. -/
def ansi : Rx :=
  Rx.cat [.alt (Rx.chr '\x9b') (Rx.word ['\x1b', '[']), .star (range '0' '?'), .star (range ' ' '/'), range '@' '~']

/-- `pattern.sub('', text)`. The first argument bounds the number of steps. (standard library; result 356) -/
def subF : Nat → Rx → Str → Str
  | 0, _, s => s
  | _ + 1, _, [] => []
  | n + 1, r, c :: s =>
    match Rx.rests r (c :: s) with
    | t :: _ => subF n r t
    | [] => c :: subF n r s

/-- `pattern.sub('', text)`. (standard library; result 356) -/
def sub (r : Rx) (s : Str) : Str := subF s.length r s

/-- `comments` of a result, from what it was made with. (result 346-357) -/
def comments : Option Str → Option Str
  | none => none
  | some t => if t.isEmpty then some t else some (sub ansi t)

/-- `add_comment` of a builder. (result 233-242) -/
def addComment (old : Option Str) (comment : Str) : Option Str :=
  match old with
  | none => some comment
  | some t => some (t ++ '\n' :: comment)

/-- What the result is made with after the session was suspended and resumed. (suspend 287; resume 898-899, 923, 935) -/
def resumed (data : Option Str) : Option Str := comments data

end Verif.Comments
