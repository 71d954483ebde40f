import Verif.Model.Text

/-! # Job id patterns

Models `Unit.qualify_id` (`plainbox/impl/unit/unit.py`), `Re.parse` (`plainbox/impl/xparsers.py`), the
matchers that a test plan makes of its include lines (`plainbox/impl/unit/testplan.py`), and the part
of the standard library's regular expression language that is needed to say what they mean.

The regular expressions modelled have: plain characters, escaped punctuation, `.`, character sets and
class escapes (whose meaning is the parameter `setMem`), `^`, `$`, groups, alternation, and the
quantifiers `*`, `+`, `?`. Everything else (`{m,n}`, `(?…)`, lazy and possessive quantifiers, other
alphanumeric escapes, syntax errors) is outside the model: `parseRe` returns `none`. -/

namespace Verif.Pattern

/-- Text of patterns and identifiers (xparsers.py:200-247, unit.py:775-798). -/
abbrev Str := List Char

/-! ## Identifiers -/

/-- `"::" in some_id`, unit.py 788. -/
def hasSep : Str → Bool
  | [] => false
  | c :: l => (c == ':' && l.head? == some ':') || hasSep l

/-- `Unit.qualify_id`, unit.py 775-791; `ns` is the namespace of the provider, if there is one. -/
def qualifyId (ns : Option Str) (someId : Str) : Str :=
  match ns with
  | some ns => if hasSep someId = false then ns ++ "::".toList ++ someId else someId
  | none => someId

/-! ## Regular expressions (Python's `sre_parse` and `re`) -/

/-- Quantifiers. (standard library; xparsers.py:224) -/
inductive Q
  | one | opt | star | plus
deriving DecidableEq, Repr

/-- What `sre_parse.parse` makes of a text: branches of sequences of quantified atoms. A literal
remembers nothing about how it was written, just as the tree of `sre_parse`.
The tree is inspected in xparsers.py:233-238. -/
inductive Atom
  | lit (c : Char)
  | any
  | set (raw : Str)
  | bol
  | eol
  | group (bs : List (List (Atom × Q)))

/-- A piece of a pattern (standard library; xparsers.py:224). -/
abbrev Piece := Atom × Q
/-- The alternatives of a pattern (standard library; xparsers.py:224). -/
abbrev Branches := List (List Piece)

/-- The reading mode of the parser: normal, after a backslash, inside `[…]`, inside `[…]` after a
backslash. (standard library; xparsers.py:224) -/
inductive Mode
  | normal | esc
  | inSet (raw : Str)
  | inSetEsc (raw : Str)

/-- One open group: the finished branches and the current one. (standard library; xparsers.py:224) -/
structure Frame where
  done : Branches
  cur : List Piece

/-- The state of the parser: the innermost group and those around it. (standard library; xparsers.py:224) -/
structure PS where
  mode : Mode
  top : Frame
  below : List Frame

/-- Add a piece to the current branch. (standard library; xparsers.py:224) -/
def PS.add (s : PS) (a : Atom) : PS :=
  { s with mode := .normal, top := { s.top with cur := s.top.cur ++ [(a, .one)] } }

/-- An alphanumeric ASCII character: its escape is not a literal. (standard library; xparsers.py:224) -/
def isAlnum (c : Char) : Bool :=
  ('a' ≤ c && c ≤ 'z') || ('A' ≤ c && c ≤ 'Z') || ('0' ≤ c && c ≤ '9')

/-- Whether an atom can be repeated: not an anchor. (standard library; xparsers.py:224) -/
def Atom.repeatable : Atom → Bool
  | .bol => false
  | .eol => false
  | _ => true

/-- A quantifier applies to the last piece, which must not have one. (standard library; xparsers.py:224) -/
def PS.quantify (s : PS) (q : Q) : Option PS :=
  match s.top.cur.getLast? with
  | some (a, .one) =>
    if a.repeatable then
      some { s with top := { s.top with cur := s.top.cur.dropLast ++ [(a, q)] } }
    else none
  | _ => none

/-- The escapes that stand for a class of characters. (standard library; xparsers.py:224) -/
def isClass (c : Char) : Bool :=
  c = 'd' || c = 'D' || c = 's' || c = 'S' || c = 'w' || c = 'W'

/-- `[c]` is a literal for `sre_parse`, as is `[\.]`; everything else is a set. (standard library; xparsers.py:224) -/
def setAtom (raw : Str) : Atom :=
  match raw with
  | [c] => .lit c
  | ['\\', c] => if isClass c then .set raw else .lit c
  | _ => .set raw

/-- One character of the pattern. (standard library; xparsers.py:224) -/
def step (s : PS) (c : Char) : Option PS :=
  match s.mode with
  | .esc =>
    if isClass c then some (s.add (.set ['\\', c]))
    else if isAlnum c then none
    else some (s.add (.lit c))
  | .inSetEsc raw =>
    if isAlnum c ∧ isClass c = false then none else some { s with mode := .inSet (raw ++ [c]) }
  | .inSet raw =>
    if c = ']' ∧ raw ≠ [] ∧ raw ≠ ['^'] then some (s.add (setAtom raw))
    else if c = '\\' then some { s with mode := .inSetEsc (raw ++ [c]) }
    else some { s with mode := .inSet (raw ++ [c]) }
  | .normal =>
    if c = '\\' then some { s with mode := .esc }
    else if c = '[' then some { s with mode := .inSet [] }
    else if c = '.' then some (s.add .any)
    else if c = '^' then some (s.add .bol)
    else if c = '$' then some (s.add .eol)
    else if c = '*' then s.quantify .star
    else if c = '+' then s.quantify .plus
    else if c = '?' then s.quantify .opt
    else if c = '{' then none
    else if c = '|' then some { s with top := ⟨s.top.done ++ [s.top.cur], []⟩ }
    else if c = '(' then some { s with top := ⟨[], []⟩, below := s.top :: s.below }
    else if c = ')' then
      match s.below with
      | [] => none
      | f :: fs =>
        some { mode := .normal
               top := { f with cur := f.cur ++ [(.group (s.top.done ++ [s.top.cur]), .one)] }
               below := fs }
    else some (s.add (.lit c))

/-- All characters. (standard library; xparsers.py:224) -/
def run : PS → Str → Option PS
  | s, [] => some s
  | s, c :: l =>
    match step s c with
    | some s' => run s' l
    | none => none

/-- `sre_parse.parse(text)` for the modelled syntax. (xparsers.py:224) -/
def parseRe (text : Str) : Option Branches :=
  match run ⟨.normal, ⟨[], []⟩, []⟩ text with
  | some ⟨.normal, top, []⟩ => some (top.done ++ [top.cur])
  | _ => none

section Meaning
variable (setMem : Str → Char → Bool) (s : Str)

/-- `MPiece setMem s p i j`: the piece `p` can match the characters of `s` from `i` up to `j`.
(the meaning of `re.match`, used in secure/qualifiers.py:296-297 and xparsers.py:285) -/
inductive MPiece : Piece → Nat → Nat → Prop
  | lit {c i} : s[i]? = some c → MPiece (.lit c, .one) i (i + 1)
  | any {c i} : s[i]? = some c → c ≠ '\n' → MPiece (.any, .one) i (i + 1)
  | set {raw c i} : s[i]? = some c → setMem raw c = true → MPiece (.set raw, .one) i (i + 1)
  | bol : MPiece (.bol, .one) 0 0
  | eol {i} : i = s.length ∨ (i + 1 = s.length ∧ s[i]? = some '\n') → MPiece (.eol, .one) i i
  | empty {bs i} : [] ∈ bs → MPiece (.group bs, .one) i i
  | group {bs : Branches} {b p l i k j} : b ∈ bs → b = p :: l → MPiece p i k →
      MPiece (.group [l], .one) k j → MPiece (.group bs, .one) i j
  | optNone {a i} : MPiece (a, .opt) i i
  | optSome {a i j} : MPiece (a, .one) i j → MPiece (a, .opt) i j
  | starNone {a i} : MPiece (a, .star) i i
  | starSome {a i k j} : MPiece (a, .one) i k → MPiece (a, .star) k j → MPiece (a, .star) i j
  | plus {a i k j} : MPiece (a, .one) i k → MPiece (a, .star) k j → MPiece (a, .plus) i j

/-- A sequence of pieces matches from `i` up to `j`. (secure/qualifiers.py:296-297, xparsers.py:285) -/
def MSeq : List Piece → Nat → Nat → Prop
  | [], i, j => i = j
  | p :: l, i, j => ∃ k, MPiece setMem s p i k ∧ MSeq l k j

/-- `re.match(pattern, s) is not None`: some branch matches a prefix.
(secure/qualifiers.py:296-297, xparsers.py:285) -/
def reMatch (bs : Branches) : Prop := ∃ b ∈ bs, ∃ j, MSeq setMem s b 0 j

end Meaning

/-! ## Test plan patterns -/

/-- `Re.parse`, xparsers.py 225-243: `ReFixed` if the tree is a flat list of literals, `RePattern`
otherwise, with the original text. -/
inductive Re
  | fixed (text : Str)
  | pattern (text : Str)
deriving DecidableEq, Repr

/-- One `LITERAL` node. (xparsers.py:237) -/
def Piece.isLit : Piece → Bool
  | (.lit _, .one) => true
  | _ => false

/-- `Re.parse`, xparsers.py 198-244, for the modelled syntax. The tree of `sre_parse` with a single
branch is the flat sequence of that branch; with more it is one `BRANCH` node. -/
def reParse (text : Str) : Option Re :=
  match parseRe text with
  | none => none
  | some [b] => some (if b.all Piece.isLit then .fixed text else .pattern text)
  | some _ => some (.pattern text)

/-- The matcher of an include line: `OperatorMatcher(eq, target)` or `PatternMatcher(pattern)`.
(secure/qualifiers.py:231-260, 283-297) -/
inductive Matcher
  | eq (target : Str)
  | pattern (text : Str)
deriving DecidableEq, Repr

/-- `qualify_pattern`, testplan.py 585-594, which is also what `parse_matchers` does inline at
testplan.py 477-491. -/
def qualifyPattern (ns : Option Str) (p : Str) : Str :=
  if p.head? = some '^' ∧ p.getLast? = some '$' then '^' :: qualifyId ns (p.drop 1).dropLast ++ ['$']
  else if p.head? = some '^' then '^' :: qualifyId ns (p.drop 1) ++ ['$']
  else if p.getLast? = some '$' then '^' :: qualifyId ns p.dropLast ++ ['$']
  else '^' :: qualifyId ns p ++ ['$']

/-- `visit_IncludeStmt_node` of `parse_matchers`, testplan.py 467-494, and of `_get_matchers`,
testplan.py 803-811. -/
def matcherOf (ns : Option Str) : Re → Matcher
  | .fixed text => .eq (qualifyId ns text)
  | .pattern text => .pattern (qualifyPattern ns text)

/-- `OperatorMatcher.match` (qualifiers.py 259-260) and `PatternMatcher.match` (qualifiers.py
296-297). A pattern text outside the modelled syntax matches nothing here; the theorems are about
texts inside it. -/
def Matcher.matches (setMem : Str → Char → Bool) (m : Matcher) (id : Str) : Prop :=
  match m with
  | .eq target => id = target
  | .pattern text => ∃ bs, parseRe text = some bs ∧ reMatch setMem id bs

/-- An include line with the pattern `text` selects the job `id`.
(unit/testplan.py:416-500; secure/qualifiers.py:351-359) -/
def selects (setMem : Str → Char → Bool) (ns : Option Str) (text id : Str) : Prop :=
  ∃ re, reParse text = some re ∧ (matcherOf ns re).matches setMem id

end Verif.Pattern
