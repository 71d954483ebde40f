import Verif.Model.Help
import Verif.Model.Where

/-! # Paragraphs on the terminal (`plainbox/impl/ingredients.py`)

`RenderingContext.para` wraps a text, aligns the lines, and prints them with padding around; the message about a crash is
made of such paragraphs.

`textwrap.wrap` of the standard library is modelled as far as it is used.  Simplified: where a word may be broken at
hyphens is left open; `split` is any way to cut the text. -/

namespace Verif.Para

open Verif.Words (Str)

/-! ## `textwrap.wrap` -/

/-- `str.isspace` of all characters, or empty: `chunk.strip() == ''`. (standard library `textwrap`, used at ingredients.py 100) -/
def blank (s : Str) : Bool := s.all Text.isSpace

/-- `_munge_whitespace`: tabs are expanded, other ASCII white space becomes a blank. (standard library `textwrap`, used at
ingredients.py 100) -/
def munge (s : Str) : Str :=
  (Help.expandTabs 0 s).map fun c => if (9 ≤ c.toNat ∧ c.toNat ≤ 13) then ' ' else c

/-- The inner loop of `_wrap_chunks`: chunks are taken as long as they fit. (standard library `textwrap`, used at
ingredients.py 100) -/
def fill (width : Nat) : Nat → List Str → List Str × List Str
  | _, [] => ([], [])
  | n, c :: cs =>
    if n + c.length ≤ width then
      let r := fill width (n + c.length) cs
      (c :: r.1, r.2)
    else ([], c :: cs)

/-- `_handle_long_word` with `break_long_words`. (standard library `textwrap`, used at ingredients.py 100) -/
def long (width : Nat) (r : List Str × List Str) : List Str × List Str :=
  match r.2 with
  | [] => r
  | c :: cs =>
    if width < c.length then
      let left := width - r.1.flatten.length
      (r.1 ++ [c.take left], c.drop left :: cs)
    else r

/-- Dropping white space at the end of a line. (standard library `textwrap`, used at ingredients.py 100) -/
def trimLast (line : List Str) : List Str :=
  match line.getLast? with
  | some c => if blank c then line.dropLast else line
  | none => line

/-- `_wrap_chunks`; the flag tells whether there is a line already.  The first argument bounds the number of rounds.
(standard library `textwrap`, used at ingredients.py 100) -/
def wrapLoop (width : Nat) : Nat → Bool → List Str → List Str
  | 0, _, _ => []
  | _ + 1, _, [] => []
  | f + 1, started, c :: cs =>
    let chunks := if blank c ∧ started then cs else c :: cs
    let r := long width (fill width 0 chunks)
    let line := trimLast r.1
    if line.isEmpty then wrapLoop width f started r.2 else line.flatten :: wrapLoop width f true r.2

/-- `textwrap.wrap(text, width, break_long_words=True)`: `none` is the `ValueError` for a width that is not positive.
(standard library, used at ingredients.py 100) -/
def wrap (split : Str → List Str) (text : Str) (width : Int) : Option (List Str) :=
  if width ≤ 0 then none
  else some (wrapLoop width.toNat ((split (munge text)).flatten.length + 1) false (split (munge text)))

/-! ## Paragraphs -/

/-- `self.align`, ingredients.py 77, 112-117; every other value leaves the line as it is. -/
inductive Align
  | left | right | center | other
deriving DecidableEq, Repr

/-- The rendering context, ingredients.py 70-87. -/
structure Ctx where
  width : Nat
  bg : Option Str
  fg : Option Str
  bold : Bool
  top : Nat
  right : Nat
  bottom : Nat
  left : Nat
  align : Align

/-- `reset`, ingredients.py 70-77: every attribute is set. -/
def reset (_ : Ctx) : Ctx := ⟨80, none, none, false, 0, 0, 0, 0, .left⟩

/-- A line that is printed, with its style. (ingredients.py 107, 118-120) -/
structure Line where
  text : Str
  fg : Option Str
  bg : Option Str
  bold : Bool
deriving DecidableEq, Repr

/-- `' ' * n`, ingredients.py 105-107. -/
def spaces (n : Nat) : Str := List.replicate n ' '

/-- `ljust`, `rjust`, `center`, ingredients.py 112-117; the odd blank of `center` is on the left if the width is odd. -/
def justify (a : Align) (width : Nat) (s : Str) : Str :=
  let m := width - s.length
  match a with
  | .left => s ++ spaces m
  | .right => spaces m ++ s
  | .center =>
    let l := m / 2 + (if m % 2 = 1 ∧ width % 2 = 1 then 1 else 0)
    spaces l ++ s ++ spaces (m - l)
  | .other => s

/-- What is given to `para`, ingredients.py 99-104: a text, or a list of texts. -/
inductive Content
  | text (s : Str)
  | list (l : List Str)

/-- The lines before they are aligned, ingredients.py 99-104, 110-111. -/
def lines (split : Str → List Str) (t : Content) (cw : Int) : Option (List Str) :=
  match t with
  | .text s => (wrap split s cw).map fun l => l.flatMap Where.splitLines
  | .list l => some (l.flatMap Where.splitLines)

/-- `para`, ingredients.py 89-122; `none` is the `ValueError` of `textwrap.wrap`. -/
def para (split : Str → List Str) (c : Ctx) (t : Content) : Option (List Line) :=
  let cw : Int := (c.width : Int) - ((c.left : Int) + (c.right : Int))
  let empty := Line.mk (spaces c.width) c.fg c.bg false
  (lines split t cw).map fun ls =>
    List.replicate c.top empty ++
      (ls.map fun l => Line.mk (spaces c.left ++ justify c.align cw.toNat l ++ spaces c.right) c.fg c.bg c.bold) ++
      List.replicate c.bottom empty

/-- `dispatch_failed`, ingredients.py 152-174: what is printed, and the status of `SystemExit`.  The four texts are the translated
messages, and `tb` is what `traceback.format_exception` gives.  The state of the context before does not matter, since
it is reset. -/
def dispatchFailed (split : Str → List Str) (before : Ctx) (title : Str) (tb : List Str) (report apology : Str) :
    Option (List Line × Nat) :=
  let c1 : Ctx := { reset before with
    bg := some "red".toList, fg := some "bright_white".toList, bold := true, align := .center
    top := 1, right := 1, bottom := 1, left := 1 }
  let c2 : Ctx := { c1 with align := .left, bold := false, top := 0, right := 0, bottom := 0, left := 0 }
  let c3 : Ctx := { c2 with top := 2, right := 2, bottom := 0, left := 2 }
  let c4 : Ctx := { c3 with top := 1, right := 2, bottom := 1, left := 2 }
  (para split c1 (.text title)).bind fun a =>
    (para split c2 (.list tb)).bind fun b =>
      (para split c3 (.text report)).bind fun c =>
        (para split c4 (.text apology)).map fun d => (a ++ b ++ c ++ d, 1)

end Verif.Para
