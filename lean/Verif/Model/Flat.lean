import Verif.Model.Stream
import Verif.Model.IOLog

/-! # The log of a command as text

Models `io_log_as_flat_text` and `io_log_as_text_attachment` (`plainbox/impl/result.py`, "result"), and the incremental UTF-8
decoder behind `codecs.iterdecode`, which they use.

Simplified: a text is a list of Unicode scalar values, since UTF-8 has no surrogates. The decoder of newer versions of Python
also waits for more after the first two bytes of a surrogate at the end of a chunk; that changes where the texts are cut, but
not the texts put together. -/

namespace Verif.Flat

open Verif.Checksum (Str)
open Verif.Stream (cont)

/-- U+FFFD, what the error handler `replace` puts in place of bytes that are not UTF-8. (standard library; used in result
393-398) -/
def replacement : Char := Char.ofNat 0xFFFD

/-- The first step of the UTF-8 decoder: a character and how many bytes it took, or an error (`none`) and how many bytes it
concerns; nothing if there are no bytes or if the character may go on. (standard library; used in result 393-398, 418-422) -/
def first : List Nat → Option (Option Char × Nat)
  | [] => none
  | a :: l =>
    if a < 0x80 then some (some (Char.ofNat a), 1)
    else if a < 0xC2 then some (none, 1)
    else if a < 0xE0 then
      match l with
      | [] => none
      | b :: _ => if cont b then some (some (Char.ofNat ((a - 0xC0) * 64 + (b - 0x80))), 2) else some (none, 1)
    else if a < 0xF0 then
      match l with
      | [] => none
      | b :: l =>
        if !cont b || (if b < 0xA0 then a == 0xE0 else a == 0xED) then some (none, 1)
        else
          match l with
          | [] => none
          | d :: _ =>
            if cont d then some (some (Char.ofNat ((a - 0xE0) * 4096 + (b - 0x80) * 64 + (d - 0x80))), 3)
            else some (none, 2)
    else if a < 0xF5 then
      match l with
      | [] => none
      | b :: l =>
        if !cont b || (if b < 0x90 then a == 0xF0 else a == 0xF4) then some (none, 1)
        else
          match l with
          | [] => none
          | d :: l =>
            if !cont d then some (none, 2)
            else
              match l with
              | [] => none
              | e :: _ =>
                if cont e then
                  some (some (Char.ofNat ((a - 0xF0) * 262144 + (b - 0x80) * 4096 + (d - 0x80) * 64 + (e - 0x80))), 4)
                else some (none, 3)
    else some (none, 1)

/-- Decode while there are whole characters: the text and the bytes left over, or `UnicodeDecodeError`. The second argument
bounds the number of steps. (standard library; used in result 393-398, 418-422) -/
def scan (strict : Bool) : Nat → List Nat → Option (Str × List Nat)
  | 0, bs => some ([], bs)
  | fuel + 1, bs =>
    match first bs with
    | none => some ([], bs)
    | some (none, n) =>
      if strict then none else (scan strict fuel (bs.drop n)).map fun p => (replacement :: p.1, p.2)
    | some (some c, n) => (scan strict fuel (bs.drop n)).map fun p => (c :: p.1, p.2)

/-- The end of the bytes: what is left over is the beginning of a character. (standard library; used in result 393-398,
418-422) -/
def finish (strict : Bool) (rest : List Nat) : Option Str :=
  if rest.isEmpty then some [] else if strict then none else some [replacement]

/-- `codecs.iterdecode(chunks, 'UTF-8', errors)`: the texts it yields; the first list is the buffer of the decoder. It yields
no empty texts, which changes nothing for what is joined. (standard library; used in result 393-398, 418-422) -/
def iterdecode (strict : Bool) (buffer : List Nat) : List (List Nat) → Option (List Str)
  | [] => (finish strict buffer).map fun t => [t]
  | chunk :: chunks =>
    (scan strict (buffer ++ chunk).length (buffer ++ chunk)).bind fun p =>
      (iterdecode strict p.2 chunks).map fun ts => p.1 :: ts

/-- Does `CONTROL_CODE_RE_STR` match the character? (result 58-59) -/
def control (c : Char) : Bool :=
  (!['\n', '\r', '\t', '\x0b'].contains c && decide (c.toNat ≤ 0x1F)) ||
    (decide (0x7F ≤ c.toNat) && decide (c.toNat ≤ 0x9F))

/-- `CONTROL_CODE_RE_STR.sub('', text)`; every match is one character. (result 394, 417) -/
def sub (t : Str) : Str := t.filter fun c => !control c

/-- The bytes of a record. (result 396, 419) -/
def bytes (r : IOLog.Rec) : List Nat := r.data.map (·.val)

/-- `io_log_as_flat_text`, result 369-398. The error handler `replace` raises nothing. -/
def flat (log : List IOLog.Rec) : Str :=
  match iterdecode false [] (log.map bytes) with
  | none => []
  | some ts => (ts.map sub).flatten

/-- `io_log_as_text_attachment`, result 400-424. -/
def attachment (log : List IOLog.Rec) : Str :=
  match iterdecode true [] ((log.filter fun r => r.stream == "stdout".toList).map bytes) with
  | none => []
  | some ts => (ts.map sub).flatten

end Verif.Flat
