import Verif.Model.Checksum

/-! # Writing what was exported to a stream

Models `ByteStringStreamTranslator` (`plainbox/impl/exporter/__init__.py`, "exporter"), `shutil.copyfileobj` and UTF-8, and
the places that use them: `RunInvocation._save_results` (`plainbox/impl/commands/inv_run.py`, "inv_run"),
`SessionInvocation.export_session` (`plainbox/impl/commands/inv_session.py`, "inv_session"), `StreamTransport.send` and
`FileTransport.send` (`plainbox/impl/transport.py`, "transport").

Simplified: a byte is a number; a text is a list of Unicode scalar values, since UTF-8 has no surrogates; a stream accepts
every text. -/

namespace Verif.Stream

open Verif.Checksum (Str)

/-- The UTF-8 encoding of a character. (standard library; used in exporter 380) -/
def encodeChar (c : Char) : List Nat :=
  let n := c.toNat
  if n < 0x80 then [n]
  else if n < 0x800 then [0xC0 + n / 64, 0x80 + n % 64]
  else if n < 0x10000 then [0xE0 + n / 4096, 0x80 + n / 64 % 64, 0x80 + n % 64]
  else [0xF0 + n / 262144, 0x80 + n / 4096 % 64, 0x80 + n / 64 % 64, 0x80 + n % 64]

/-- The UTF-8 encoding of a text. (standard library; used in plainbox/impl/exporter/text.py 51-77, jinja2.py 142) -/
def encode (t : Str) : List Nat := t.flatMap encodeChar

/-- Is it a continuation byte? (standard library; used in exporter 380) -/
def cont (b : Nat) : Bool := 0x80 ≤ b && b < 0xC0

/-- A character, if the number is one and the encoding is the shortest. (standard library; used in exporter 380) -/
def char (least n : Nat) : Option Char := if least ≤ n ∧ n.isValidChar then some (Char.ofNat n) else none

/-- `bytes.decode('utf-8')`; `none` is `UnicodeDecodeError`. (standard library; used in exporter 380) -/
def decode : List Nat → Option Str
  | [] => some []
  | a :: l =>
    if a < 0x80 then (decode l).map (Char.ofNat a :: ·)
    else
      match l with
      | [] => none
      | b :: l =>
        if !cont b then none
        else if 0xC0 ≤ a && a < 0xE0 then
          (char 0x80 ((a - 0xC0) * 64 + (b - 0x80))).bind fun c => (decode l).map (c :: ·)
        else
          match l with
          | [] => none
          | d :: l =>
            if !cont d then none
            else if 0xE0 ≤ a && a < 0xF0 then
              (char 0x800 ((a - 0xE0) * 4096 + (b - 0x80) * 64 + (d - 0x80))).bind fun c => (decode l).map (c :: ·)
            else
              match l with
              | [] => none
              | e :: l =>
                if !cont e then none
                else if 0xF0 ≤ a && a < 0xF8 then
                  (char 0x10000 ((a - 0xF0) * 262144 + (b - 0x80) * 4096 + (d - 0x80) * 64 + (e - 0x80))).bind fun c =>
                    (decode l).map (c :: ·)
                else none

/-- `bytes.decode('ascii', errors='ignore')`. (standard library; used in exporter 377-378) -/
def asciiOnly (bs : List Nat) : Str := (bs.filter fun b => decide (b < 0x80)).map Char.ofNat

/-- `str.lower` of the name of an encoding. (standard library; used in exporter 370-371) -/
def lower (s : Str) : Str := s.map Char.toLower

/-- Does the encoding of the stream differ? (exporter 370-371) -/
def mismatch (dest : Option Str) (enc : Str) : Bool :=
  match dest with
  | none => false
  | some d => !d.isEmpty && lower d != lower enc

/-- `ByteStringStreamTranslator.write`, exporter 365-380, for the encoding UTF-8: what is written to the stream, or
`UnicodeDecodeError`. -/
def write (dest : Option Str) (enc : Str) (data : List Nat) : Option Str :=
  if mismatch dest enc then some (asciiOnly data) else decode data

/-- `shutil.copyfileobj(source, translator, length)`: read that many bytes, or all of them, and write them until there are
none left. What is written to the stream, and whether there was no exception. The first argument bounds the number of reads.
(standard library; used in inv_run 888, inv_session 167, transport 212) -/
def copy (dest : Option Str) (enc : Str) (length : Option Nat) : Nat → List Nat → Str × Bool
  | 0, _ => ([], true)
  | fuel + 1, bs =>
    if bs.isEmpty then ([], true)
    else
      match write dest enc (bs.take (length.getD bs.length)) with
      | none => ([], false)
      | some t =>
        (t ++ (copy dest enc length fuel (bs.drop (length.getD bs.length))).1,
          (copy dest enc length fuel (bs.drop (length.getD bs.length))).2)

/-- `copyfileobj` to a file that takes bytes. (standard library; used in inv_run 891, inv_session 171, transport 241) -/
def copyBytes (length : Nat) : Nat → List Nat → List Nat
  | 0, _ => []
  | fuel + 1, bs => if bs.isEmpty then [] else bs.take length ++ copyBytes length fuel (bs.drop length)

/-- The length that `copyfileobj` takes if none is given. (standard library; used in inv_run 888, inv_session 167) -/
def defaultLength : Nat := 16 * 1024

/-- What was exported, written to the standard output by `_save_results`, inv_run 881-893, and by `export_session`,
inv_session 160-173. -/
def toStdout (dest : Option Str) (data : List Nat) : Str × Bool :=
  copy dest "utf-8".toList (some defaultLength) data.length data

/-- `StreamTransport.send`, transport 194-214. Its stream has this encoding (transport 185-192). -/
def send (data : List Nat) : Str × Bool :=
  copy (some "utf-8".toList) "utf-8".toList none data.length data

/-- What was exported, written to a file: `_save_results`, inv_run 889-893, `export_session`, inv_session 168-173, and
`FileTransport.send`, transport 222-242. -/
def toFile (data : List Nat) : List Nat := copyBytes defaultLength data.length data

end Verif.Stream
