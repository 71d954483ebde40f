import Verif.Model.Text

/-! # The word scanner and the small parsers built on it

Models `plainbox/impl/xscanners.py` and the parts of `plainbox/impl/xparsers.py` that read word
lists, field override statements and include statements. Line numbers and column offsets of the
syntax nodes are not modelled. -/

namespace Verif.Words

/-- Text, as in xscanners.py 82-243. -/
abbrev Str := List Char

/-- The NUL character, xscanners.py 82 and 243. -/
def nul : Char := Char.ofNat 0

/-- What a call can raise. `assertion` is the `assert False` of xscanners.py 71, `index` the
`IndexError` of `stack.pop()` on an empty list at xscanners.py 57, `overflow` the `OverflowError`
that `sre_parse.parse` (xparsers.py 226) raises for a repetition count that is too large; only
`sre_constants.error` is caught there. `diverge` is not an exception: it stands for a loop that
did not end within the given number of rounds. -/
inductive Exc
  | assertion | index | overflow | diverge
deriving DecidableEq, Repr

/-- `WordScannerToken`, xscanners.py 88-101. -/
inductive Tok
  | invalid | eof | word | space | comment | comma | equals
deriving DecidableEq, Repr

/-- `WordScannerToken.is_irrelevant`, xscanners.py 99-101. -/
def Tok.irrelevant : Tok → Bool
  | .space => true
  | .comment => true
  | _ => false

/-- `WordScannerState`, xscanners.py 104-118. -/
inductive St
  | bad | start | eof | error | bareWord | quotedInner | quotedEnd | space | commentInner
  | commentEnd | comma | equals
deriving DecidableEq, Repr

/-- `WordScannerState.is_accepting`, xscanners.py 120-122 with the set of 137-142. -/
def St.accepting : St → Bool
  | .eof | .bareWord | .quotedEnd | .space | .commentEnd | .comma | .equals => true
  | _ => false

/-- `WordScannerState.token`, xscanners.py 131-134 with the map of 143-151. -/
def St.token : St → Tok
  | .eof => .eof
  | .bareWord => .word
  | .quotedEnd => .word
  | .space => .space
  | .commentEnd => .comment
  | .comma => .comma
  | .equals => .equals
  | _ => .invalid

/-- `WordScannerState.modify_lexeme`, xscanners.py 124-129. -/
def St.modifyLexeme (s : St) (lexeme : Str) : Str :=
  if s = .quotedEnd then (lexeme.drop 1).dropLast else lexeme

/-- `WordScanner._next_state_for`, xscanners.py 239-287. -/
def next (state : St) (c : Char) : St :=
  match state with
  | .start =>
    if Text.isSpace c then .space
    else if c = nul then .eof
    else if c = '#' then .commentInner
    else if c = '"' then .quotedInner
    else if c = ',' then .comma
    else if c = '=' then .equals
    else .bareWord
  | .space => if Text.isSpace c then .space else .error
  | .bareWord =>
    if Text.isSpace c ∨ c = nul ∨ c = '#' ∨ c = ',' ∨ c = '=' then .error else .bareWord
  | .commentInner => if c = '\n' ∨ c = nul then .commentEnd else .commentInner
  | .quotedInner =>
    if c = '"' then .quotedEnd else if c = nul then .error else .quotedInner
  | _ => .error

/-- `ScannerBase._next_char`, xscanners.py 73-82: the character and the new position. -/
def nextChar (text : Str) (pos : Nat) : Char × Nat :=
  match text[pos]? with
  | some c => (c, pos + 1)
  | none => (nul, text.length + 1)

/-- The first loop of `ScannerBase.get_token`, xscanners.py 48-54. The stack is kept with its top
first. The loop is cut after `fuel` rounds. -/
def forward (text : Str) : Nat → St → Str → List St → Nat → Except Exc (Str × List St × Nat)
  | 0, _, _, _, _ => .error .diverge
  | fuel + 1, state, lexeme, stack, pos =>
    if state = .error then .ok (lexeme, stack, pos)
    else
      forward text fuel (next state (nextChar text pos).1) (lexeme ++ [(nextChar text pos).1])
        (state :: (if state.accepting then [] else stack)) (nextChar text pos).2

/-- The second loop of `ScannerBase.get_token` with `_rollback`, xscanners.py 56-59 and 67-71. -/
def backward : List St → St → Str → Nat → Except Exc (St × Str × Nat)
  | stack, state, lexeme, pos =>
    if state.accepting ∨ state = .bad then .ok (state, lexeme, pos)
    else
      match stack with
      | [] => .error .index
      | s :: stack => if pos = 0 then .error .assertion else backward stack s lexeme.dropLast (pos - 1)

/-- `lexeme.rstrip("\0")`, xscanners.py 60. -/
def stripNul (l : Str) : Str := (l.reverse.dropWhile (· == nul)).reverse

/-- `ScannerBase.get_token`, xscanners.py 41-65: the token, the lexeme or `None`, and the position
afterwards. -/
def rawToken (text : Str) (pos : Nat) : Except Exc (Tok × Option Str × Nat) :=
  match forward text (text.length + 4) .start [] [.bad] pos with
  | .error e => .error e
  | .ok (lexeme, stack, pos) =>
    match backward stack .error lexeme pos with
    | .error e => .error e
    | .ok (state, lexeme, pos) =>
      .ok (state.token,
        if state.accepting then some (state.modifyLexeme (stripNul lexeme)) else none, pos)

/-- `WordScanner.get_token`, xscanners.py 231-237, with irrelevant tokens skipped; cut after `fuel`
rounds. -/
def skipToken (text : Str) : Nat → Nat → Except Exc (Tok × Option Str × Nat)
  | 0, _ => .error .diverge
  | fuel + 1, pos =>
    match rawToken text pos with
    | .error e => .error e
    | .ok (tok, lexeme, pos) =>
      if tok.irrelevant then skipToken text fuel pos else .ok (tok, lexeme, pos)

/-- `WordScanner.get_token`, xscanners.py 231-237. Every irrelevant token takes at least one
character, so this number of rounds is enough (proved in the lemmas). -/
def getToken (text : Str) (pos : Nat) : Except Exc (Tok × Option Str × Nat) :=
  skipToken text (text.length + 2) pos

/-! ## Word lists -/

/-- One entry of a `WordList`: a `Text` node or an `Error` node with the offending lexeme,
xparsers.py 630 and 632-634. -/
inductive Entry
  | text (s : Str)
  | error (lexeme : Option Str)
deriving DecidableEq, Repr

/-- The loop of `WordList.parse`, xparsers.py 623-635, cut after `fuel` rounds. -/
def wordLoop (text : Str) : Nat → Nat → List Entry → Except Exc (List Entry)
  | 0, _, _ => .error .diverge
  | fuel + 1, pos, entries =>
    (getToken text pos).bind fun x =>
      if x.1 = .eof then .ok entries
      else if x.1 = .comma then wordLoop text fuel x.2.2 entries
      else if x.1 = .word then wordLoop text fuel x.2.2 (entries ++ [.text (x.2.1.getD [])])
      else wordLoop text fuel x.2.2 (entries ++ [.error x.2.1])

/-- `WordList.parse`, xparsers.py 587-636, stopped after `fuel` rounds of its loop. -/
def wordList (fuel : Nat) (text : Str) : Except Exc (List Entry) := wordLoop text fuel 0 []

/-! ## Statements -/

/-- What `sre_parse.parse` makes of a pattern, xparsers.py 225-243: a flat list of literals, another
regular expression, a syntax error, or a repetition count out of range. The regular expression
language itself is a parameter of the model (`kind`), see `reParse`. -/
inductive ReKind
  | fixed | pattern | err | overflow
deriving DecidableEq, Repr

/-- The node made by `Re.parse`: which subclass, and the text it keeps. (xparsers.py 193-295) -/
structure Re where
  kind : ReKind
  text : Str
deriving DecidableEq, Repr

/-- `Re.parse`, xparsers.py 198-244. `kind` tells what the standard library makes of the text. -/
def reParse (kind : Str → ReKind) (text : Str) : Except Exc Re :=
  match kind text with
  | .overflow => .error .overflow
  | k => .ok ⟨k, text⟩

/-- The messages of the `Error` nodes, xparsers.py 364-386 and 497-530. -/
inductive Msg
  | expectedApply (near : Option Str)
  | expectedValue
  | expectedTo (near : Option Str)
  | expectedOverridePattern
  | garbage (lexeme : Option Str)
  | expectedPattern
  | expectedField
  | expectedEquals
  | expectedComma
deriving DecidableEq, Repr

/-- A parsed statement or an `Error` node. (xparsers.py 298-305) -/
inductive Node (α : Type)
  | node (a : α)
  | err (m : Msg)
deriving DecidableEq, Repr

/-- `FieldOverride`, xparsers.py 309-313. -/
structure Override where
  value : Str
  pattern : Re
deriving DecidableEq, Repr

/-- `FieldOverride.parse`, xparsers.py 315-388. A token is the triple of its kind, its lexeme and the
position after it. -/
def fieldOverride (kind : Str → ReKind) (text : Str) : Except Exc (Node Override) :=
  (getToken text 0).bind fun x1 =>
  if x1.1 ≠ .word ∨ x1.2.1 ≠ some "apply".toList then .ok (.err (.expectedApply x1.2.1)) else
  (getToken text x1.2.2).bind fun x2 =>
  if x2.1 ≠ .word then .ok (.err .expectedValue) else
  (getToken text x2.2.2).bind fun x3 =>
  if x3.1 ≠ .word ∨ x3.2.1 ≠ some "to".toList then .ok (.err (.expectedTo x3.2.1)) else
  (getToken text x3.2.2).bind fun x4 =>
  if x4.1 ≠ .word then .ok (.err .expectedOverridePattern) else
  (reParse kind (x4.2.1.getD [])).bind fun re =>
  (getToken text x4.2.2).bind fun x5 =>
  if x5.1 ≠ .eof then .ok (.err (.garbage x5.2.1))
  else .ok (.node ⟨x2.2.1.getD [], re⟩)

/-- `IncludeStmt`, xparsers.py 417-426; `OverrideExpression` (410-414) is a pair. -/
structure Include where
  pattern : Re
  overrides : List (Str × Str)
deriving DecidableEq, Repr

/-- The loop of `IncludeStmt.parse`, xparsers.py 499-531. `i0` tells whether `i == 0`; cut after
`fuel` rounds. -/
def includeLoop (text : Str) (re : Re) :
    Nat → Bool → Nat → List (Str × Str) → Except Exc (Node Include)
  | 0, _, _, _ => .error .diverge
  | fuel + 1, i0, pos, acc =>
    (getToken text pos).bind fun x1 =>
    if x1.1 = .eof ∧ i0 = true then .ok (.node ⟨re, acc⟩)
    else if x1.1 ≠ .word then .ok (.err .expectedField) else
    (getToken text x1.2.2).bind fun x2 =>
    if x2.1 ≠ .equals then .ok (.err .expectedEquals) else
    (getToken text x2.2.2).bind fun x3 =>
    if x3.1 ≠ .word then .ok (.err .expectedValue) else
    (getToken text x3.2.2).bind fun x4 =>
    if x4.1 = .comma then
      includeLoop text re fuel false x4.2.2 (acc ++ [(x1.2.1.getD [], x3.2.1.getD [])])
    else if x4.1 = .eof then .ok (.node ⟨re, acc ++ [(x1.2.1.getD [], x3.2.1.getD [])]⟩)
    else .ok (.err .expectedComma)

/-- `IncludeStmt.parse`, xparsers.py 428-532. Every round of the loop takes at least one character,
so the number of rounds allowed here is enough (proved in the lemmas). -/
def includeStmt (kind : Str → ReKind) (text : Str) : Except Exc (Node Include) :=
  (getToken text 0).bind fun x =>
  if x.1 ≠ .word then .ok (.err .expectedPattern) else
  (reParse kind (x.2.1.getD [])).bind fun re =>
  includeLoop text re (text.length + 2) true x.2.2 []

end Verif.Words
