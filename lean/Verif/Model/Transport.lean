import Verif.Basic

/-!
# Sending a report

Models `ByteStringStreamTranslator` (`impl/exporter/__init__.py` 337-380), `impl/transport.py` (63-246),
`_save_results` and `export_and_send_results` (`impl/commands/inv_run.py` 865-893), the end of
`export_session` (`impl/commands/inv_session.py` 153-174) and `export_to_transport`
(`impl/session/assistant.py` 1481-1524).

Simplifications: characters are code points and bytes are numbers; the output streams accept every
character that is written to them; disks do not fill up; a server is what `requests.post` does; signing, the
printed messages and the names of encodings other than their comparison are left out.
-/

namespace Verif.Transport

/-- Names, locations and options (transport.py 85-109). -/
abbrev Str := List Char
/-- Reports (exporter/__init__.py 365-380). -/
abbrev Bytes := List Nat
/-- What text streams are given (exporter/__init__.py 365-380). -/
abbrev Text := List Nat

/-! ## UTF-8 -/

/-- The state of a strict UTF-8 decoder (`bytes.decode('utf-8')`): between characters, or `k + 1` more bytes
are needed, the next of them from `lo` to `hi`. (standard library; used in exporter/__init__.py 374-380) -/
inductive Dec
  | start
  | more (k acc lo hi : Nat)
  deriving DecidableEq, Repr

/-- The first byte of a character. (standard library; exporter/__init__.py 365-380) -/
def lead (a : Nat) : Option (Dec × Text) :=
  if a < 0x80 then some (.start, [a])
  else if a < 0xC2 then none
  else if a < 0xE0 then some (.more 0 (a - 0xC0) 0x80 0xBF, [])
  else if a = 0xE0 then some (.more 1 0 0xA0 0xBF, [])
  else if a = 0xED then some (.more 1 0xD 0x80 0x9F, [])
  else if a < 0xF0 then some (.more 1 (a - 0xE0) 0x80 0xBF, [])
  else if a = 0xF0 then some (.more 2 0 0x90 0xBF, [])
  else if a < 0xF4 then some (.more 2 (a - 0xF0) 0x80 0xBF, [])
  else if a = 0xF4 then some (.more 2 4 0x80 0x8F, [])
  else none

/-- One byte. (standard library; exporter/__init__.py 365-380) -/
def step : Dec → Nat → Option (Dec × Text)
  | .start, a => lead a
  | .more k acc lo hi, b =>
    if lo ≤ b ∧ b ≤ hi then
      match k with
      | 0 => some (.start, [acc * 64 + (b - 0x80)])
      | k + 1 => some (.more k (acc * 64 + (b - 0x80)) 0x80 0xBF, [])
    else none

/-- All bytes; at the end the decoder has to be between characters.
(standard library; exporter/__init__.py 365-380) -/
def decodeFrom : Dec → Bytes → Option Text
  | .start, [] => some []
  | .more .., [] => none
  | d, a :: r =>
    match step d a with
    | none => none
    | some (d', t) => (decodeFrom d' r).map (t ++ ·)

/-- `data.decode('utf-8')`; `none` is `UnicodeDecodeError`.
(standard library; used in exporter/__init__.py 374-380) -/
def decode (bs : Bytes) : Option Text := decodeFrom .start bs

/-- `data.decode('ascii', errors='ignore')`. (exporter/__init__.py 374-380) -/
def decodeAscii (bs : Bytes) : Text := bs.filter (· < 0x80)

/-! ## Streams -/

/-- Exceptions. (transport.py 57-65, 139-242) -/
inductive Err
  | unicode | attribute | os | transport | request
  deriving DecidableEq, Repr

/-- A text stream: the name of its encoding and what was written to it. (exporter/__init__.py 348-380) -/
structure Stream where
  encoding : Option Str
  text : Text
  deriving DecidableEq, Repr

/-- `str.lower`, for ASCII. (exporter/__init__.py 348-380) -/
def lower (s : Str) : Str := s.map Char.toLower

/-- The encoding the commands give to the translator (inv_run.py 886-887). -/
def utf8 : Str := "utf-8".toList

/-- `ByteStringStreamTranslator.write` (365-380) with the encoding UTF-8. -/
def translate (s : Stream) (data : Bytes) : Stream × Option Err :=
  match s.encoding with
  | some (c :: e) =>
    if lower (c :: e) ≠ lower utf8 then ({ s with text := s.text ++ decodeAscii data }, none)
    else
      match decode data with
      | some t => ({ s with text := s.text ++ t }, none)
      | none => (s, some .unicode)
  | _ =>
    match decode data with
    | some t => ({ s with text := s.text ++ t }, none)
    | none => (s, some .unicode)

/-- What `read(n)` gives, again and again until it gives nothing; `none` for a negative length, the whole
rest at once. (standard library; inv_run.py 881-893, transport.py 213, 241) -/
def chunks (n : Option Nat) : Nat → Bytes → List Bytes
  | 0, _ => []
  | f + 1, bs =>
    match n with
    | none => if bs = [] then [] else [bs]
    | some n => if bs.take n = [] then [] else bs.take n :: chunks (some n) f (bs.drop n)

/-- `copyfileobj(src, dst, n)` of the module `shutil`: write every chunk, until an exception.
(standard library; inv_run.py 881-893, transport.py 213, 241) -/
def copyLoop {S : Type} (write : S → Bytes → S × Option Err) : List Bytes → S → S × Option Err
  | [], s => (s, none)
  | c :: cs, s =>
    match write s c with
    | (s', none) => copyLoop write cs s'
    | r => r

/-- `copyfileobj` of a binary stream with the content `bs`.
(standard library; inv_run.py 881-893, transport.py 213, 241) -/
def copy {S : Type} (write : S → Bytes → S × Option Err) (n : Option Nat) (bs : Bytes) (s : S) :
    S × Option Err := copyLoop write (chunks n (bs.length + 1) bs) s

/-- Writing to a binary file. (transport.py 240-241, inv_run.py 891) -/
def append (file : Bytes) (data : Bytes) : Bytes × Option Err := (file ++ data, none)

/-! ## Output of the commands -/

/-- `_save_results` (inv_run 881-893) and the end of `export_session` (inv_session 160-174) for standard
output; `bufsize` is the default length of `copyfileobj`. -/
def saveStdout (bufsize : Nat) (report : Bytes) (stdout : Stream) : Stream × Option Err :=
  copy translate (some bufsize) report stdout

/-- The same for a file, which was opened, and emptied, by `FileType`. (inv_run.py 889-893, inv_session.py 153-174) -/
def saveFile (bufsize : Nat) (report : Bytes) : Bytes × Option Err := copy append (some bufsize) report []

/-! ## Transports -/

/-- What `send` is given: bytes, or a binary stream that gives them. (transport.py 146-157, 194-200, 222-230) -/
inductive Data
  | bytes (b : Bytes)
  | file (b : Bytes)
  deriving DecidableEq, Repr

/-- `StreamTransport.send` (193-214); bytes have no `read`. -/
def streamSend (d : Data) (s : Stream) : Stream × Option Err :=
  match d with
  | .bytes _ => (s, some .attribute)
  | .file b => copy translate none b s

/-- `FileTransport.send` (222-242); the file is `none` if it is not there, `canOpen` tells whether it can be
opened for writing. -/
def fileSend (bufsize : Nat) (canOpen : Bool) (d : Data) (file : Option Bytes) : Option Bytes × Option Err :=
  if canOpen then
    match d with
    | .bytes _ => (some [], some .attribute)
    | .file b => let r := copy append (some bufsize) b []; (some r.1, r.2)
  else (file, some .os)

/-- What `requests.post` does: an exception (timeout, invalid schema, no connection, or another one), or a
reply with a status. (transport.py 146-178) -/
inductive Reply
  | timeout | invalidSchema | connection | other
  | status (code : Nat)
  deriving DecidableEq, Repr

/-- `_OAuthTransport.send` (142-174); the state is what the server got, with the status it replied. The
exceptions of `raise_for_status` are for the statuses from 400 to 599. -/
def oauthSend (r : Reply) (d : Data) (server : List (Bytes × Nat)) : List (Bytes × Nat) × Option Err :=
  match r with
  | .timeout => (server, some .transport)
  | .invalidSchema => (server, some .transport)
  | .connection => (server, some .transport)
  | .other => (server, some .request)
  | .status code =>
    let b := match d with
      | .bytes b => b
      | .file b => b
    (server ++ [(b, code)], if 400 ≤ code ∧ code < 600 then some .transport else none)

/-- `export_and_send_results` (inv_run 865-879) after the results were saved: `send` is given bytes, and only
`TransportError` is caught. -/
def sendResults {S : Type} (send : Data → S → S × Option Err) (report : Bytes) (s : S) : S × Option Err :=
  match send (.bytes report) s with
  | (s', some .transport) => (s', none)
  | r => r

/-- The part of a session that exporting changes: whether it is flagged as submitted, and whether it is in
the last checkpoint. (assistant 1481-1524) -/
structure Flags where
  submitted : Bool
  saved : Bool
  deriving DecidableEq, Repr

/-- `export_to_transport` (assistant 1516-1524) after the exporter made the report. -/
def exportToTransport {S : Type} (send : Data → S → S × Option Err) (report : Bytes) (s : S) (f : Flags) :
    S × Flags × Option Err :=
  match send (.file report) s with
  | (s', some e) => (s', f, some e)
  | (s', none) => if f.submitted then (s', f, none) else (s', ⟨true, true⟩, none)

/-! ## Options -/

/-- `text.split(",")`. (transport.py 106) -/
def splitComma : Str → List Str
  | [] => [[]]
  | c :: s =>
    if c = ',' then [] :: splitComma s
    else match splitComma s with
      | [] => [[c]]
      | l :: ls => (c :: l) :: ls

/-- `pair.split("=", 1)`; `none` if that is not two texts. (transport.py 106) -/
def splitEqual : Str → Option (Str × Str)
  | [] => none
  | c :: s => if c = '=' then some ([], s) else (splitEqual s).map fun p => (c :: p.1, p.2)

/-- `d[k] = v`. (transport.py 104-107) -/
def store (k v : Str) : List (Str × Str) → List (Str × Str)
  | [] => [(k, v)]
  | e :: d => if e.1 = k then (k, v) :: d else e :: store k v d

/-- The dictionary of the pairs; `none` is `ValueError`. (transport.py 104-107) -/
def pairs : List Str → List (Str × Str) → Option (List (Str × Str))
  | [], d => some d
  | p :: ps, d =>
    match splitEqual p with
    | some (k, v) => pairs ps (store k v d)
    | none => none

/-- `TransportBase.__init__` (86-113): the options; `none` is `ValueError`. -/
def options : Option Str → Option (List (Str × Str))
  | none => some []
  | some [] => some []
  | some (c :: s) => if '=' ∈ c :: s then pairs (splitComma (c :: s)) [] else none

end Verif.Transport
