import Verif.Model.Checksum

/-!
# Parsing something and showing it as JSON

Models `ParserPlugIn.parse_text_to_json`, `parse_text_to_ast` and `_to_json` (`plainbox/impl/parsers.py`, "parsers") and
`ParseInvocation.run` (`plainbox/impl/commands/inv_parse.py`, "inv").

Simplified: what a parser gives has no cycles, no numbers but integers, and only texts as keys; `as_json` does not raise; tuples
are lists. `json.dumps` is in the standard library; it is modelled with the options that are used.
-/

namespace Verif.Dump

open Checksum (Str sortItems)

/-- What a parser gives. An instance of some other class: whether it is a pattern, what `as_json` returns (nothing if there is no
such attribute), its `__dict__` if it has one, its `__slots__` if it has them, and whether one of them was never set.
(parsers 124-127, 153-163) -/
inductive Obj
  | none
  | bool (b : Bool)
  | int (n : Int)
  | str (s : Str)
  | list (l : List Obj)
  | dict (l : List (Str × Obj))
  | inst (pattern : Bool) (asJson : List Obj) (hasDict : Bool) (attrs : List (Str × Obj))
      (hasSlots : Bool) (slots : List (Str × Obj)) (unset : Bool)

/-- What `json.dumps` writes. (parsers 126-127) -/
inductive J
  | null
  | bool (b : Bool)
  | int (n : Int)
  | str (s : Str)
  | arr (l : List J)
  | obj (l : List (Str × J))

mutual
/-- What `json.dumps` with `sort_keys` and `default=self._to_json` makes of something, or nothing for an exception.
(parsers 126-127, 153-163) -/
def conv : Obj → Option J
  | .none => some .null
  | .bool b => some (.bool b)
  | .int n => some (.int n)
  | .str s => some (.str s)
  | .list l => (convList l).map .arr
  | .dict l => (convItems l).map fun m => .obj (sortItems m)
  | .inst pattern asJson hasDict attrs hasSlots slots unset =>
    if pattern then some (.str "<Pattern>".toList)
    else match asJson with
      | o :: _ => conv o
      | [] =>
        if hasDict then (convItems attrs).map fun m => .obj (sortItems m)
        else if hasSlots then
          if unset then Option.none else (convItems slots).map fun m => .obj (sortItems m)
        else Option.none
/-- The items of a list. (parsers 126-127) -/
def convList : List Obj → Option (List J)
  | [] => some []
  | o :: l => match conv o, convList l with
    | some j, some js => some (j :: js)
    | _, _ => Option.none
/-- The items of a dictionary. (parsers 126-127) -/
def convItems : List (Str × Obj) → Option (List (Str × J))
  | [] => some []
  | (k, o) :: l => match conv o, convItems l with
    | some j, some js => some ((k, j) :: js)
    | _, _ => Option.none
end

/-- A new line with an indentation. (parsers 126, `indent=4`) -/
def nl (n : Nat) : Str := '\n' :: List.replicate (4 * n) ' '

/-- A number. (parsers 126) -/
def intText (n : Int) : Str := if n < 0 then '-' :: Nat.toDigits 10 n.natAbs else Nat.toDigits 10 n.natAbs

mutual
/-- The text. (parsers 126, `indent=4`) -/
def text : Nat → J → Str
  | _, .null => "null".toList
  | _, .bool true => "true".toList
  | _, .bool false => "false".toList
  | _, .int n => intText n
  | _, .str s => IOLog.jsonStr s
  | _, .arr [] => "[]".toList
  | n, .arr (j :: l) => '[' :: (nl (n + 1) ++ (text (n + 1) j ++ (rest (n + 1) l ++ (nl n ++ [']']))))
  | _, .obj [] => "{}".toList
  | n, .obj ((k, j) :: l) =>
    '{' :: (nl (n + 1) ++ (IOLog.jsonStr k ++ (": ".toList ++ (text (n + 1) j ++ (restItems (n + 1) l ++ (nl n ++ ['}']))))))
/-- The items of a list after the first. (parsers 126) -/
def rest : Nat → List J → Str
  | _, [] => []
  | n, j :: l => ',' :: (nl n ++ (text n j ++ rest n l))
/-- The items of a dictionary after the first. (parsers 126) -/
def restItems : Nat → List (Str × J) → Str
  | _, [] => []
  | n, (k, j) :: l => ',' :: (nl n ++ (IOLog.jsonStr k ++ (": ".toList ++ (text n j ++ restItems n l))))
end

/-- `parse_text_to_ast`: nothing if the parser raised an exception. (parsers 136-143) -/
def ast (parser : Str → Except Unit Obj) (input : Str) : Obj :=
  match parser input with
  | .ok o => o
  | .error _ => .none

/-- How the command ends: with a status and what it printed, or with a traceback. (inv 37-66) -/
inductive Out
  | exit (status : Nat) (printed : Option Str)
  | traceback
deriving DecidableEq

/-- `ParseInvocation.run`. The input is a text, or cannot be decoded: that raises `UnicodeDecodeError`, but `_do_read` handles
`UnicodeEncodeError` only. (inv 37-66; parsers 116-127) -/
def run (parser : Str → Except Unit Obj) (input : Option Str) : Out :=
  match input with
  | Option.none => .traceback
  | some t =>
    match ast parser t with
    | .none => .exit 2 Option.none
    | o =>
      match conv o with
      | some j => .exit 0 (some (text 0 j))
      | Option.none => .traceback

end Verif.Dump
