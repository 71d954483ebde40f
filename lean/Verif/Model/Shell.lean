/-!
# Model of `ShellProgramValidator`, `plainbox/impl/unit/validators.py`, and of the lexer it uses

The validator runs the lexer `shlex.shlex(value, posix=True)` of Python over the text of a field.
The lexer is modelled character by character: `instream.read(1)` takes one character, and what
`instream.readline()` skips after `#` is skipped one character at a time.  A character that is put
back (`pushback`) is always a token of its own, so it is noted as one at once.
-/

namespace Verif.Shell

/-- The text of a command (validators.py, `ShellProgramValidator.check`). -/
abbrev Str := List Char

/-- `shlex.wordchars` for `posix=True` (Python's shlex.py, used at validators.py:521). -/
def isWord (c : Char) : Bool :=
  ('a' ≤ c && c ≤ 'z') || ('A' ≤ c && c ≤ 'Z') || ('0' ≤ c && c ≤ '9') || c == '_' ||
    "ßàáâãäåæçèéêëìíîïðñòóôõöøùúûüýþÿÀÁÂÃÄÅÆÇÈÉÊËÌÍÎÏÐÑÒÓÔÕÖØÙÚÛÜÝÞ".toList.contains c

/-- `shlex.whitespace` (validators.py:521). -/
def isSpace (c : Char) : Bool := c == ' ' || c == '\t' || c == '\r' || c == '\n'

/-- `shlex.state` (validators.py:521): between tokens, in a word, in quotes, after a backslash with
the `escapedstate` to go back to; and in a comment (`readline`). -/
inductive State where
  | space
  | word
  | quotes (q : Char)
  | escape
  | escapeIn (q : Char)
  | comment
deriving DecidableEq, Repr

/-- The two `ValueError`s of the lexer (validators.py:526). -/
inductive Failure where
  | noClosing
  | noEscaped
deriving DecidableEq, Repr

/-- The lexer (validators.py:521-525): `state`, `token`, `quoted`, `lineno` and the last token it
gave, the variable `token` of the validator. -/
structure Lexer where
  state : State
  token : Str
  quoted : Bool
  lineno : Nat
  last : Option Str
deriving DecidableEq, Repr

/-- `break` out of the loop of `read_token` (validators.py:524) if there is a token, else
`continue`. -/
def Lexer.emit (l : Lexer) : Lexer :=
  if l.token ≠ [] ∨ l.quoted = true then { l with token := [], quoted := false, last := some l.token }
  else l

/-- One turn of the loop of `read_token` with a character (validators.py:524). -/
def Lexer.read (l : Lexer) (c : Char) : Lexer :=
  match l.state with
  | .comment => if c = '\n' then { l with state := .space } else l
  | .space =>
    let l := if c = '\n' then { l with lineno := l.lineno + 1 } else l
    if isSpace c then l.emit
    else if c = '#' then { l with state := .comment, lineno := l.lineno + 1 }
    else if c = '\\' then { l with state := .escape }
    else if isWord c then { l with token := [c], state := .word }
    else if c = '\'' ∨ c = '"' then { l with state := .quotes c }
    else { l with token := [c] }.emit
  | .quotes q =>
    let l := if c = '\n' then { l with lineno := l.lineno + 1 } else l
    let l := { l with quoted := true }
    if c = q then { l with state := .word }
    else if c = '\\' ∧ q = '"' then { l with state := .escapeIn q }
    else { l with token := l.token ++ [c] }
  | .escape =>
    let l := if c = '\n' then { l with lineno := l.lineno + 1 } else l
    { l with token := l.token ++ [c], state := .word }
  | .escapeIn q =>
    let l := if c = '\n' then { l with lineno := l.lineno + 1 } else l
    let l := if c ≠ '\\' ∧ c ≠ q then { l with token := l.token ++ ['\\'] } else l
    { l with token := l.token ++ [c], state := .quotes q }
  | .word =>
    let l := if c = '\n' then { l with lineno := l.lineno + 1 } else l
    if isSpace c then { l with state := .space }.emit
    else if c = '#' then { l with state := .comment, lineno := l.lineno + 1 }.emit
    else if c = '\'' ∨ c = '"' then { l with state := .quotes c }
    else if c = '\\' then { l with state := .escape }
    else if isWord c then { l with token := l.token ++ [c] }
    else { { l with state := .space }.emit with last := some [c] }

/-- The loop of the validator over the tokens, validators.py:521-526: what the lexer fails with at the
end of the text, the line it is at and the last token. -/
def lex : Lexer → Str → Option (Failure × Nat × Option Str)
  | l, c :: cs => lex (l.read c) cs
  | l, [] =>
    match l.state with
    | .quotes _ => some (.noClosing, l.lineno, l.last)
    | .escape | .escapeIn _ => some (.noEscaped, l.lineno, l.last)
    | _ => none

/-- `shlex.shlex(value, posix=True)`, validators.py:521. -/
def start : Lexer := ⟨.space, [], false, 1, none⟩

/-- `'<<' in value`, validators.py:516. -/
def hasHere : Str → Bool
  | '<' :: '<' :: _ => true
  | _ :: cs => hasHere cs
  | [] => false

/-- What is given to `parent.error`: the exception, the token of the message `{}, near {!r}` and the
offset, validators.py:527-534. -/
structure Issue where
  failure : Failure
  near : Option Str
  offset : Nat
deriving DecidableEq, Repr

/-- `ShellProgramValidator.check`, validators.py:511-534; the value is that of the field. -/
def check (value : Option Str) : List Issue :=
  match value with
  | none => []
  | some v =>
    if hasHere v then []
    else
      match lex start v with
      | none => []
      | some (e, lineno, token) => [⟨e, token, lineno - 1⟩]

end Verif.Shell
