import Verif.Basic

/-!
# Messages between the remote service and its clients

Model of the vendored rpyc modules through which the remote session service (C76) talks to its clients:
plainbox/vendor/rpyc/core/brine.py ("brine"), channel.py ("channel") and `SocketStream` of stream.py
("stream"), on Python 3.  A value is turned into bytes, the bytes are put into a frame, the frame is written
to a socket in pieces of any size and read in other pieces.

Simplified: floats are their 64 bits; a set is the list of its elements in the order in which it is iterated;
the limit on recursion is not modelled; `int` of bytes does not know underscores and `str` of an
integer no limit; zlib is a pair of functions.
-/

namespace Verif.Brine

/-- `bytes` (brine 25-52). -/
abbrev Bytes := List UInt8

/-- The values.  A character is its code point, which may be a surrogate.  `other` is an object of any other
type. (The types with an entry in the registry, brine 64-199.) -/
inductive Val
  | none
  | notImplemented
  | ellipsis
  | bool (b : Bool)
  | int (i : Int)
  | float (x : UInt64)
  | complex (re im : UInt64)
  | bytes (l : Bytes)
  | str (l : List Nat)
  | tup (l : List Val)
  | fset (l : List Val)
  | slice (a b c : Val)
  | other
deriving Repr

/-- Exceptions: `TypeError`, `struct.error`, `ValueError`, `AttributeError`, `UnicodeEncodeError`,
`OverflowError`. (Raised in brine 77-353 and channel 44-69 by the functions of the standard library used there.) -/
inductive Err
  | type | struct | value | attr | encode | overflow
deriving DecidableEq, Repr

/-! ## Numbers and texts -/

/-- The `n` low bytes of a number, the highest first. (What `struct` does in brine 58-61, channel 22.) -/
def be : Nat → Nat → Bytes
  | 0, _ => []
  | n + 1, k => be n (k / 256) ++ [UInt8.ofNat (k % 256)]

/-- The number that these bytes are. (What `struct` does in brine 58-61, channel 22.) -/
def unbe (l : Bytes) : Nat := l.foldl (fun a b => a * 256 + b.toNat) 0

/-- `Struct("!B").pack`, `Struct("!L").pack` (brine 58-59, channel 22): too large numbers raise. -/
def pack (n k : Nat) : Except Err Bytes := if k < 256 ^ n then .ok (be n k) else .error .struct

/-- `unpack` of exactly `n` bytes. (brine 267-273, 293-306, 317-323, channel 51) -/
def unpack (n : Nat) (l : Bytes) : Except Err Nat := if l.length = n then .ok (unbe l) else .error .struct

/-- The UTF-8 encoding of a code point; surrogates cannot be encoded. (`obj.encode("utf8")`, brine 168-170.) -/
def encode1 (c : Nat) : Option Bytes :=
  if c < 0x80 then some [UInt8.ofNat c]
  else if c < 0x800 then some [UInt8.ofNat (0xC0 + c / 64), UInt8.ofNat (0x80 + c % 64)]
  else if 0xD800 ≤ c ∧ c < 0xE000 then none
  else if c < 0x10000 then
    some [UInt8.ofNat (0xE0 + c / 4096), UInt8.ofNat (0x80 + c / 64 % 64), UInt8.ofNat (0x80 + c % 64)]
  else if c < 0x110000 then
    some [UInt8.ofNat (0xF0 + c / 262144), UInt8.ofNat (0x80 + c / 4096 % 64), UInt8.ofNat (0x80 + c / 64 % 64),
      UInt8.ofNat (0x80 + c % 64)]
  else none

/-- `str.encode("utf8")`. (brine 147, 170) -/
def encode : List Nat → Except Err Bytes
  | [] => .ok []
  | c :: l =>
    match encode1 c, encode l with
    | some b, .ok r => .ok (b ++ r)
    | none, _ => .error .encode
    | _, .error e => .error e

/-- A continuation byte. (Part of `decode("utf-8")`, brine 276-278.) -/
def cont (b : UInt8) : Bool := decide (0x80 ≤ b.toNat ∧ b.toNat < 0xC0)

/-- `bytes.decode("utf-8")`: overlong forms, surrogates and too large code points raise. (brine 276-278) -/
def decode : Bytes → Except Err (List Nat)
  | [] => .ok []
  | a :: l =>
    if a.toNat < 0x80 then
      match decode l with
      | .ok r => .ok (a.toNat :: r)
      | .error e => .error e
    else
      match l with
      | [] => .error .value
      | b :: l =>
        if !cont b then .error .value
        else if 0xC2 ≤ a.toNat ∧ a.toNat < 0xE0 then
          match decode l with
          | .ok r => .ok (((a.toNat - 0xC0) * 64 + (b.toNat - 0x80)) :: r)
          | .error e => .error e
        else
          match l with
          | [] => .error .value
          | c :: l =>
            if !cont c then .error .value
            else if 0xE0 ≤ a.toNat ∧ a.toNat < 0xF0 then
              let v := (a.toNat - 0xE0) * 4096 + (b.toNat - 0x80) * 64 + (c.toNat - 0x80)
              if v < 0x800 ∨ 0xD800 ≤ v ∧ v < 0xE000 then .error .value
              else
                match decode l with
                | .ok r => .ok (v :: r)
                | .error e => .error e
            else
              match l with
              | [] => .error .value
              | d :: l =>
                if !cont d then .error .value
                else if 0xF0 ≤ a.toNat ∧ a.toNat < 0xF5 then
                  let v := (a.toNat - 0xF0) * 262144 + (b.toNat - 0x80) * 4096 + (c.toNat - 0x80) * 64 + (d.toNat - 0x80)
                  if v < 0x10000 ∨ 0x110000 ≤ v then .error .value
                  else
                    match decode l with
                    | .ok r => .ok (v :: r)
                    | .error e => .error e
                else .error .value

/-- The decimal digits of a number; the first argument only bounds the recursion. (`str(obj)`, brine 106-115.) -/
def digits : Nat → Nat → Bytes
  | 0, _ => []
  | f + 1, n => if n < 10 then [UInt8.ofNat (48 + n)] else digits f (n / 10) ++ [UInt8.ofNat (48 + n % 10)]

/-- `str` of an integer, as bytes (brine 110). -/
def decimal (i : Int) : Bytes :=
  if i < 0 then 45 :: digits (i.natAbs + 1) i.natAbs else digits (i.natAbs + 1) i.natAbs

/-- Is this one of `"0"` to `"9"`? (used for `int`, brine 239) -/
def isDigit (b : UInt8) : Bool := decide (48 ≤ b.toNat ∧ b.toNat < 58)

/-- White space for `int`. (Part of `int`, brine 317-323.) -/
def isSpace (b : UInt8) : Bool := decide (b.toNat = 32 ∨ 9 ≤ b.toNat ∧ b.toNat < 14)

/-- The number that some digits are. (Part of `int`, brine 317-323.) -/
def natOf (l : Bytes) : Option Nat :=
  if l ≠ [] ∧ l.all isDigit = true then some (l.foldl (fun a b => a * 10 + (b.toNat - 48)) 0) else none

/-- `int` of bytes (brine 319, 323). -/
def intOf (l : Bytes) : Except Err Int :=
  match ((l.dropWhile isSpace).reverse.dropWhile isSpace).reverse with
  | [] => .error .value
  | a :: r =>
    if a = 45 then match natOf r with | some n => .ok (-(n : Int)) | none => .error .value
    else if a = 43 then match natOf r with | some n => .ok n | none => .error .value
    else match natOf (a :: r) with | some n => .ok n | none => .error .value

/-! ## Dumping -/

/-- `_dump_bytes`, brine 126-142. -/
def dumpBytes (l : Bytes) : Except Err Bytes :=
  if l.length = 0 then .ok [0x01]
  else if l.length = 1 then .ok (0x0a :: l)
  else if l.length = 2 then .ok (0x0b :: l)
  else if l.length = 3 then .ok (0x0c :: l)
  else if l.length = 4 then .ok (0x0d :: l)
  else if l.length < 256 then
    match pack 1 l.length with
    | .ok h => .ok (0x0e :: (h ++ l))
    | .error e => .error e
  else
    match pack 4 l.length with
    | .ok h => .ok (0x0f :: (h ++ l))
    | .error e => .error e

/-- `_dump_int`, brine 105-115; `IMM_INTS` is brine 53-54. -/
def dumpInt (i : Int) : Except Err Bytes :=
  if -0x30 ≤ i ∧ i < 0xa0 then .ok [UInt8.ofNat (i + 0x50).toNat]
  else if (decimal i).length < 256 then
    match pack 1 (decimal i).length with
    | .ok h => .ok (0x16 :: (h ++ decimal i))
    | .error e => .error e
  else
    match pack 4 (decimal i).length with
    | .ok h => .ok (0x17 :: (h ++ decimal i))
    | .error e => .error e

/-- The beginning of `_dump_tuple`, brine 178-194: the length. -/
def tupHead (n : Nat) : Except Err Bytes :=
  if n = 0 then .ok [0x02]
  else if n = 1 then .ok [0x10]
  else if n = 2 then .ok [0x11]
  else if n = 3 then .ok [0x12]
  else if n = 4 then .ok [0x13]
  else if n < 256 then
    match pack 1 n with
    | .ok h => .ok (0x14 :: h)
    | .error e => .error e
  else
    match pack 4 n with
    | .ok h => .ok (0x15 :: h)
    | .error e => .error e

mutual

/-- `dump`, brine 76-202 and 334-343: what is appended to the stream, in one piece. -/
def dump : Val → Except Err Bytes
  | .none => .ok [0x00]
  | .notImplemented => .ok [0x05]
  | .ellipsis => .ok [0x06]
  | .bool b => .ok [if b then 0x03 else 0x04]
  | .int i => dumpInt i
  | .float x => .ok (0x18 :: be 8 x.toNat)
  | .complex a b => .ok (0x1b :: (be 8 a.toNat ++ be 8 b.toNat))
  | .bytes l => dumpBytes l
  | .str l =>
    match encode l with
    | .error e => .error e
    | .ok b =>
      match dumpBytes b with
      | .ok r => .ok (0x08 :: r)
      | .error e => .error e
  | .tup l =>
    match tupHead l.length, dumpAll l with
    | .ok h, .ok r => .ok (h ++ r)
    | .error e, _ => .error e
    | _, .error e => .error e
  | .fset l =>
    match tupHead l.length, dumpAll l with
    | .ok h, .ok r => .ok (0x1a :: (h ++ r))
    | .error e, _ => .error e
    | _, .error e => .error e
  | .slice a b c =>
    match dump a, dump b, dump c with
    | .ok x, .ok y, .ok z => .ok (0x19 :: 0x12 :: (x ++ y ++ z))
    | .error e, _, _ => .error e
    | _, .error e, _ => .error e
    | _, _, .error e => .error e
  | .other => .error .type

/-- The loop of `_dump_tuple`, brine 195-196. -/
def dumpAll : List Val → Except Err Bytes
  | [] => .ok []
  | v :: l =>
    match dump v, dumpAll l with
    | .ok x, .ok y => .ok (x ++ y)
    | .error e, _ => .error e
    | _, .error e => .error e

end

mutual

/-- `dumpable`, brine 355-374. -/
def dumpable : Val → Bool
  | .tup l => dumpableAll l
  | .fset l => dumpableAll l
  | .slice a b c => dumpable a && dumpable b && dumpable c
  | .other => false
  | _ => true

/-- `all(dumpable(item) for item in obj)`. (brine 362-374) -/
def dumpableAll : List Val → Bool
  | [] => true
  | v :: l => dumpable v && dumpableAll l

end

/-! ## Loading -/

mutual

/-- Can the value be in a set?  Slices are not hashable. (`frozenset(...)`, brine 313-314.) -/
def hashable : Val → Bool
  | .slice _ _ _ => false
  | .tup l => hashableAll l
  | _ => true

/-- All of them. (`frozenset(...)`, brine 313-314.) -/
def hashableAll : List Val → Bool
  | [] => true
  | v :: l => hashable v && hashableAll l

end

/-- Iterating a value (brine 310, 314). -/
def items : Val → Except Err (List Val)
  | .tup l => .ok l
  | .fset l => .ok l
  | .bytes l => .ok (l.map fun b => .int b.toNat)
  | .str l => .ok (l.map fun c => .str [c])
  | _ => .error .type

/-- `int` of a text and of a float (brine 239). -/
structure Env where
  ofStr : List Nat → Except Err Int
  ofFloat : UInt64 → Except Err Int

/-- `_load_long`, brine 235-239: `int` of a value. -/
def toInt (env : Env) : Val → Except Err Val
  | .int i => .ok (.int i)
  | .bool b => .ok (.int (if b then 1 else 0))
  | .bytes l => (intOf l).map .int
  | .str l => (env.ofStr l).map .int
  | .float x => (env.ofFloat x).map .int
  | _ => .error .type

/-- Some values one after the other (brine 280-301). -/
def times (f : Bytes → Except Err (Val × Bytes)) : Nat → Bytes → Except Err (List Val × Bytes)
  | 0, s => .ok ([], s)
  | n + 1, s =>
    match f s with
    | .error e => .error e
    | .ok (v, s) =>
      match times f n s with
      | .error e => .error e
      | .ok (l, s) => .ok (v :: l, s)

/-- A tuple of `n` values (brine 280-301). -/
def tuple (f : Bytes → Except Err (Val × Bytes)) (n : Nat) (s : Bytes) : Except Err (Val × Bytes) :=
  match times f n s with
  | .error e => .error e
  | .ok (l, s) => .ok (.tup l, s)

/-- A value and what is made of it (brine 238-239, 277-278, 310-314). -/
def after (f : Bytes → Except Err (Val × Bytes)) (g : Val → Except Err Val) (s : Bytes) : Except Err (Val × Bytes) :=
  match f s with
  | .error e => .error e
  | .ok (v, s) =>
    match g v with
    | .error e => .error e
    | .ok w => .ok (w, s)

/-- `obj.decode("utf-8")`, brine 275-278. -/
def text : Val → Except Err Val
  | .bytes l => (decode l).map .str
  | _ => .error .attr

/-- `frozenset(…)`, brine 312-314. -/
def toSet (v : Val) : Except Err Val :=
  match items v with
  | .error e => .error e
  | .ok l => if hashableAll l then .ok (.fset l) else .error .type

/-- `slice` of three values, brine 308-311. -/
def toSlice (v : Val) : Except Err Val :=
  match items v with
  | .error e => .error e
  | .ok [a, b, c] => .ok (.slice a b c)
  | .ok _ => .error .value

/-- Reading a length of `n` bytes and then something of this length (brine 268-273, 294-301, 318-323). -/
def sized {α : Type} (n : Nat) (s : Bytes) (k : Nat → Bytes → Except Err α) : Except Err α :=
  match unpack n (s.take n) with
  | .error e => .error e
  | .ok l => k l (s.drop n)

/-- `_load`, brine 207-329, with the rest of the stream.  An unknown tag is a `TypeError`, since `None` is
called; `stream.read` gives less than it is asked for at the end of the data.  The first argument bounds
how deep values are nested. -/
def load (env : Env) : Nat → Bytes → Except Err (Val × Bytes)
  | 0, _ => .error .type
  | _ + 1, [] => .error .type
  | f + 1, t :: s =>
    if 0x20 ≤ t.toNat ∧ t.toNat < 0xf0 then .ok (.int ((t.toNat : Int) - 0x50), s)
    else
      match t.toNat with
      | 0x00 => .ok (.none, s)
      | 0x01 => .ok (.bytes [], s)
      | 0x02 => .ok (.tup [], s)
      | 0x03 => .ok (.bool true, s)
      | 0x04 => .ok (.bool false, s)
      | 0x05 => .ok (.notImplemented, s)
      | 0x06 => .ok (.ellipsis, s)
      | 0x08 => after (load env f) text s
      | 0x09 => after (load env f) (toInt env) s
      | 0x0a => .ok (.bytes (s.take 1), s.drop 1)
      | 0x0b => .ok (.bytes (s.take 2), s.drop 2)
      | 0x0c => .ok (.bytes (s.take 3), s.drop 3)
      | 0x0d => .ok (.bytes (s.take 4), s.drop 4)
      | 0x0e => sized 1 s fun l s => .ok (.bytes (s.take l), s.drop l)
      | 0x0f => sized 4 s fun l s => .ok (.bytes (s.take l), s.drop l)
      | 0x10 => tuple (load env f) 1 s
      | 0x11 => tuple (load env f) 2 s
      | 0x12 => tuple (load env f) 3 s
      | 0x13 => tuple (load env f) 4 s
      | 0x14 => sized 1 s fun l s => tuple (load env f) l s
      | 0x15 => sized 4 s fun l s => tuple (load env f) l s
      | 0x16 => sized 1 s fun l s => (intOf (s.take l)).map fun i => (.int i, s.drop l)
      | 0x17 => sized 4 s fun l s => (intOf (s.take l)).map fun i => (.int i, s.drop l)
      | 0x18 =>
        (unpack 8 (s.take 8)).map fun x => (.float (UInt64.ofNat x), s.drop 8)
      | 0x19 => after (load env f) toSlice s
      | 0x1a => after (load env f) toSet s
      | 0x1b =>
        match unpack 8 (s.take 8), unpack 8 ((s.drop 8).take 8) with
        | .ok a, .ok b => .ok (.complex (UInt64.ofNat a) (UInt64.ofNat b), s.drop 16)
        | _, _ => .error .struct
      | _ => .error .type

/-- `load(data)`, brine 345-353: what follows the value is ignored. -/
def loads (env : Env) (data : Bytes) : Except Err Val := (load env (data.length + 1) data).map (·.1)

/-! ## Frames -/

/-- `zlib`. (channel 44-69) -/
structure Zlib where
  compress : Bytes → Bytes
  decompress : Bytes → Option Bytes

/-- `Channel.send`, channel 56-69: the frame. -/
def frame (z : Zlib) (compress : Bool) (d : Bytes) : Except Err Bytes :=
  let c := compress && decide (3000 < d.length)
  let d' := if c then z.compress d else d
  match pack 4 d'.length with
  | .error e => .error e
  | .ok h => .ok (h ++ [if c then 1 else 0] ++ d' ++ [10])

/-- What `sock.send` does next: it accepts some bytes, or raises. (stream 230-238) -/
inductive Out
  | sent (n : Nat)
  | fail
deriving DecidableEq, Repr

/-- How writing ends: everything was written, `EOFError` and the stream is closed, or it still waits.
(stream 230-238) -/
inductive Sent
  | ok | eof | blocked
deriving DecidableEq, Repr

/-- `SocketStream.write`, stream 230-238: what reaches the wire, how it ends, what the socket does later.  When
nothing is said about the socket it blocks.  The first argument bounds the recursion. -/
def write : Nat → Bytes → List Out → Bytes × Sent × List Out
  | 0, _, o => ([], .blocked, o)
  | f + 1, d, o =>
    if d = [] then ([], .ok, o)
    else
      match o with
      | [] => ([], .blocked, [])
      | .fail :: o => ([], .eof, o)
      | .sent n :: o =>
        let k := min n (min 8000 d.length)
        let r := write f (d.drop k) o
        (d.take k ++ r.1, r.2.1, r.2.2)

/-- What `sock.recv` does next: bytes have arrived, it raises a timeout or `EAGAIN`, another error, or the
connection is closed. (stream 210-229) -/
inductive In
  | data (l : Bytes)
  | again
  | fail
  | eof
deriving DecidableEq, Repr

/-- How reading ends: with a result, with `EOFError` and a closed stream, it still waits, or another exception.
(stream 210-229, channel 44-55) -/
inductive Got (α : Type)
  | ok (a : α)
  | eof
  | blocked
  | bad
deriving DecidableEq, Repr

/-- `SocketStream.read`, stream 210-229.  `none`: the stream was closed.  Bytes that are not taken stay. -/
def read : Nat → Nat → List In → Got Bytes × Option (List In)
  | 0, _, i => (.blocked, some i)
  | f + 1, n, i =>
    if n = 0 then (.ok [], some i)
    else
      match i with
      | [] => (.blocked, some [])
      | .again :: i => read f n i
      | .fail :: _ => (.eof, none)
      | .eof :: _ => (.eof, none)
      | .data l :: i =>
        let k := min 8000 n
        if l = [] then (.eof, none)
        else
          let r := read f (n - min k l.length) (if l.length ≤ k then i else .data (l.drop k) :: i)
          match r.1 with
          | .ok d => (.ok (l.take k ++ d), r.2)
          | g => (g, r.2)

/-- `read` with enough steps. (stream 210-229) -/
def readN (n : Nat) : Option (List In) → Got Bytes × Option (List In)
  | none => (.eof, none)
  | some i => read (n + i.length + 1) n i

/-- `Channel.recv`, channel 44-55. -/
def recv (z : Zlib) (i : Option (List In)) : Got Bytes × Option (List In) :=
  match readN 5 i with
  | (.ok h, i) =>
    match readN (unbe (h.take 4) + 1) i with
    | (.ok d, i) =>
      if unbe (h.drop 4) = 0 then (.ok d.dropLast, i)
      else
        match z.decompress d.dropLast with
        | some d => (.ok d, i)
        | none => (.bad, i)
    | r => r
  | r => r

/-! ## Messages -/

/-- `brine.dump` and `channel.send` in `Connection._send` (protocol.py 239-266), by one thread, of some
messages; an exception is handled by the caller, who goes on.  The first component is what reaches the wire, the
second for each message whether sending it returned.  `none`: the stream was closed. -/
def sendAll (z : Zlib) (compress : Bool) : List Val → Option (List Out) → Bytes × List Bool
  | [], _ => ([], [])
  | v :: vs, o =>
    match dump v with
    | .error _ => let r := sendAll z compress vs o; (r.1, false :: r.2)
    | .ok d =>
      match frame z compress d with
      | .error _ => let r := sendAll z compress vs o; (r.1, false :: r.2)
      | .ok b =>
        match o with
        | none => let r := sendAll z compress vs none; (r.1, false :: r.2)
        | some o =>
          match write (b.length + o.length + 1) b o with
          | (w, .ok, o) => let r := sendAll z compress vs (some o); (w ++ r.1, true :: r.2)
          | (w, .eof, _) => let r := sendAll z compress vs none; (w ++ r.1, false :: r.2)
          | (w, .blocked, _) => (w, false :: vs.map fun _ => false)

/-- `channel.recv` and `brine.load` (protocol.py 383-407), `n` times or until something goes wrong. -/
def recvAll (z : Zlib) (env : Env) : Nat → Option (List In) → List (Got Val)
  | 0, _ => []
  | n + 1, i =>
    match recv z i with
    | (.ok d, i) =>
      match loads env d with
      | .ok v => .ok v :: recvAll z env n i
      | .error _ => [.bad]
    | (.eof, _) => [.eof]
    | (.blocked, _) => [.blocked]
    | (.bad, _) => [.bad]

end Verif.Brine
