/-!
# Restarting the application

Model of the two restart strategies (plainbox/impl/session/restart.py, "restart") and of the place where
`SessionAssistant.run_job` makes the command (plainbox/impl/session/assistant.py, "assistant",
1306-1335), together with the functions of Python they use: `shlex.quote`, `shlex.split` and the parts of
`configparser` behind `set` and `write`.

Text is a list of characters.  The commands run with sudo, the other settings in the files and the
directories are left out.
-/

namespace Verif.Restart

/-- Text, as in restart 109-186. -/
abbrev Str := List Char

/-- The characters that `shlex.quote` leaves alone: ASCII letters and digits and a few signs.
Standard library; `quote` is used in assistant 1306-1335. -/
def isSafe (c : Char) : Bool :=
  c.isAlphanum || c = '_' || c = '@' || c = '%' || c = '+' || c = '=' || c = ':' || c = ',' ||
    c = '.' || c = '/' || c = '-'

/-- `s.replace("'", "'\"'\"'")` of `shlex.quote`. Standard library; `quote` is used in assistant 1306-1335. -/
def escapeQuote : Str → Str
  | [] => []
  | c :: s => if c = '\'' then ['\'', '"', '\'', '"', '\''] ++ escapeQuote s else c :: escapeQuote s

/-- `shlex.quote` (used in assistant 1312). -/
def quote (s : Str) : Str :=
  if s = [] then ['\'', '\'']
  else if s.all isSafe then s
  else ['\''] ++ escapeQuote s ++ ['\'']

/-- `' '.join(list)`. (assistant 1306-1335, restart 178-179) -/
def joinSp : List Str → Str
  | [] => []
  | [a] => a
  | a :: b :: l => a ++ [' '] ++ joinSp (b :: l)

/-- The command given to the strategy (assistant 1311-1314). -/
def restartCmd (args : List Str) : Str := joinSp (args.map quote)

/-- `state` of a `shlex` object: between words, in a word, in quotes, after a backslash (in a word or in
quotes). Standard library; `split` is used in restart 168. -/
inductive Mode
  | ws
  | word
  | quote (q : Char)
  | esc (back : Option Char)
deriving DecidableEq, Repr

/-- The whitespace of `shlex`. Standard library; `split` is used in restart 168. -/
def isWs (c : Char) : Bool := c = ' ' || c = '\t' || c = '\r' || c = '\n'

/-- The rest of `shlex.split`, given the state, the token so far and whether it had quotes; `none` is
`ValueError`.  This is `shlex.read_token` with `posix` and `whitespace_split`, without comments.
Standard library; `split` is used in restart 168. -/
def lex : Str → Mode → Str → Bool → Option (List Str)
  | [], .ws, tok, q => some (if tok ≠ [] ∨ q then [tok] else [])
  | [], .word, tok, q => some (if tok ≠ [] ∨ q then [tok] else [])
  | [], .quote _, _, _ => none
  | [], .esc _, _, _ => none
  | c :: cs, .ws, tok, q =>
    if isWs c then
      if tok ≠ [] ∨ q then (lex cs .ws [] false).map (tok :: ·) else lex cs .ws tok q
    else if c = '\\' then lex cs (.esc none) tok q
    else if c = '\'' ∨ c = '"' then lex cs (.quote c) tok q
    else lex cs .word [c] q
  | c :: cs, .quote k, tok, _ =>
    if c = k then lex cs .word tok true
    else if c = '\\' ∧ k = '"' then lex cs (.esc (some k)) tok true
    else lex cs (.quote k) (tok ++ [c]) true
  | c :: cs, .esc none, tok, q => lex cs .word (tok ++ [c]) q
  | c :: cs, .esc (some k), tok, q =>
    if c ≠ '\\' ∧ c ≠ k then lex cs (.quote k) (tok ++ ['\\', c]) q
    else lex cs (.quote k) (tok ++ [c]) q
  | c :: cs, .word, tok, q =>
    if isWs c then
      if tok ≠ [] ∨ q then (lex cs .ws [] false).map (tok :: ·) else lex cs .ws tok q
    else if c = '\'' ∨ c = '"' then lex cs (.quote c) tok q
    else if c = '\\' then lex cs (.esc none) tok q
    else lex cs .word (tok ++ [c]) q

/-- `shlex.split`. Standard library; `split` is used in restart 168. -/
def split (s : Str) : Option (List Str) := lex s .ws [] false

/-- `value.replace('%%', '')` in `BasicInterpolation.before_set`.
Standard library; `set` is used in restart 114, 178. -/
def dropDouble : Str → Str
  | [] => []
  | [c] => [c]
  | c :: d :: s => if c = '%' ∧ d = '%' then dropDouble s else c :: dropDouble (d :: s)

/-- After `%(`: the rest after `...)s` when there is a name of at least one character. `seen` tells
whether there was a character already. Standard library; `set` is used in restart 114, 178. -/
def keyRest : Bool → Str → Option Str
  | _, [] => none
  | seen, c :: s =>
    if c = ')' then
      if seen then match s with
        | 's' :: r => some r
        | _ => none
      else none
    else keyRest true s

/-- The reference at the start of a text, if there is one: what follows it.
Standard library; `set` is used in restart 114, 178. -/
def keyAt : Str → Option Str
  | '%' :: '(' :: t => keyRest false t
  | _ => none

/-- `re.sub('%\\(([^)]+)\\)s', '', value)` in `BasicInterpolation.before_set`; `n` is at least the
length of the text. Standard library; `set` is used in restart 114, 178. -/
def dropKeysN : Nat → Str → Str
  | 0, s => s
  | _ + 1, [] => []
  | n + 1, c :: s => match keyAt (c :: s) with
    | some r => dropKeysN n r
    | none => c :: dropKeysN n s

/-- The same for the whole text. Standard library; `set` is used in restart 114, 178. -/
def dropKeys (s : Str) : Str := dropKeysN s.length s

/-- `ConfigParser.set`: `BasicInterpolation.before_set` refuses a percent sign that is neither doubled
nor the start of a reference (`ValueError`). Standard library; `set` is used in restart 114, 178. -/
def settable (v : Str) : Bool := !(dropKeys (dropDouble v)).contains '%'

/-- `str(value).replace('\n', '\n\t')` in `ConfigParser._write_section`.
Standard library; `write` is used in restart 117, 183. -/
def writeValue : Str → Str
  | [] => []
  | c :: s => if c = '\n' then ['\n', '\t'] ++ writeValue s else c :: writeValue s

/-- `XDGRestartStrategy.prime_application_restart` (restart 109-117): the value of `Exec` in the desktop
file; `none` is `ValueError`. -/
def xdgExec (terminal : Bool) (cmd : Str) : Option Str :=
  let v := if terminal then cmd ++ ";$SHELL".toList else cmd
  if settable v then some (writeValue v) else none

/-- `str.split()` restricted to the whitespace of ASCII. (restart 179) -/
def wordsOf : Str → Str → List Str
  | [], tok => if tok = [] then [] else [tok]
  | c :: s, tok =>
    if c = ' ' ∨ ('\t' ≤ c ∧ c ≤ '\r') ∨ ('\x1c' ≤ c ∧ c ≤ '\x1f') then
      if tok = [] then wordsOf s [] else tok :: wordsOf s []
    else wordsOf s (tok ++ [c])

/-- What the snappy strategy keeps of the command (restart 168, 177-178); `none` is `ValueError` or
`IndexError`. -/
def snappyArgs (cmd : Str) : Option (List Str) :=
  (split cmd).bind fun ws => ws.head?.map fun w => (wordsOf w []).drop 1

/-- `SnappyRestartStrategy.prime_application_restart` (restart 162-186): the value of `ExecStart`. -/
def snappyExec (binary cmd : Str) : Option Str :=
  (snappyArgs cmd).bind fun args =>
    let v := binary ++ [' '] ++ joinSp args
    if settable v then some (writeValue v) else none

/-- The file `__respawn_checkbox` (assistant 1330-1333): `writelines` adds nothing between the items. -/
def respawn (args : List Str) : Str := args.flatten

end Verif.Restart
