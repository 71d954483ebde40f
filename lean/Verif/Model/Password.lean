import Verif.Model.Stream

/-!
# Passwords for remote sessions

Models `plainbox/impl/secure/sudo_broker.py` ("broker") with the RSA of PyCrypto that it uses, and what the execution controller
gives to sudo (`plainbox/impl/ctrl.py`, "ctrl"; `plainbox/impl/session/assistant2.py`, "assistant2").

Simplified: exporting a key with a passphrase, importing it, and the hash function are parameters. A byte is a number.
-/

namespace Verif.Password

open Verif.Checksum (Str)

/-- An exception: something is too long for the key, has another encoding, the key was used before, the passphrase is wrong, or an
attribute is missing. (broker 54, 59, 72, 94, 128, 130, 153) -/
inductive Err
  | tooLarge | unicode | usedUp | passphrase | attribute
deriving DecidableEq

/-- An RSA key: the modulus and the two exponents. (PyCrypto; used in broker 49, 72-74) -/
structure Key where
  n : Nat
  e : Nat
  d : Nat
deriving DecidableEq

/-- `publickey()`, as it is exported and imported without passphrase. (PyCrypto; used in broker 55, 83, 117, 152) -/
def Key.public (k : Key) : Nat × Nat := (k.n, k.e)

/-- `bytes_to_long`. (PyCrypto; used in broker 60, 94, 130, 153) -/
def toNum (bs : List Nat) : Nat := bs.foldl (fun a b => a * 256 + b) 0

/-- The digits of a number to the base 256. (PyCrypto `long_to_bytes`; used in broker 60, 94, 130, 153) -/
def digits (n : Nat) (acc : List Nat) : List Nat :=
  if n = 0 then acc else digits (n / 256) (n % 256 :: acc)
termination_by n
decreasing_by omega

/-- `long_to_bytes`: zero is one byte. (PyCrypto; used in broker 60, 94, 130, 153) -/
def fromNum (n : Nat) : List Nat := if n = 0 then [0] else digits n []

/-- `encrypt` of a public key. It gives a tuple with one element. (PyCrypto; used in broker 130, 153) -/
def encrypt (k : Nat × Nat) (bs : List Nat) : Except Err (List Nat) :=
  if k.1 ≤ toNum bs then .error .tooLarge else .ok (fromNum (toNum bs ^ k.2 % k.1))

/-- `decrypt` of a private key. (PyCrypto; used in broker 60, 94) -/
def Key.decrypt (k : Key) (bs : List Nat) : Except Err (List Nat) :=
  if k.n ≤ toNum bs then .error .tooLarge else .ok (fromNum (toNum bs ^ k.d % k.n))

/-- `sys.stdin.encoding` on the side of the user. (broker 128) -/
inductive Enc
  | utf8 | latin1 | ascii
deriving DecidableEq

/-- `password.encode(sys.stdin.encoding)`, broker 128. -/
def Enc.encode : Enc → Str → Except Err (List Nat)
  | .utf8, t => .ok (Stream.encode t)
  | .latin1, t => if t.all fun c => c.toNat < 256 then .ok (t.map Char.toNat) else .error .unicode
  | .ascii, t => if t.all fun c => c.toNat < 128 then .ok (t.map Char.toNat) else .error .unicode

/-- What is not modelled: exported keys, `exportKey` and `importKey` with a passphrase, and `hexdigest` of SHA-512. (PyCrypto,
standard library; used in broker 72, 78, 105, 129) -/
structure Lib where
  Pem : Type
  lock : Key → List Nat → Pem
  unlock : Pem → List Nat → Option Key
  sha : List Nat → Str

/-- `EphemeralKey`: its key, until it was used. (broker 48-49) -/
abbrev Ephemeral := Option Key

/-- `EphemeralKey.public_key`, broker 51-55. -/
def Ephemeral.public : Ephemeral → Except Err (Nat × Nat)
  | none => .error .usedUp
  | some k => .ok k.public

/-- `EphemeralKey.decrypt`, broker 57-62: the key is given up if that worked. -/
def Ephemeral.decrypt (x : Ephemeral) (c : List Nat) : Except Err (List Nat) × Ephemeral :=
  match x with
  | none => (.error .usedUp, none)
  | some k =>
    match k.decrypt c with
    | .error e => (.error e, some k)
    | .ok m => (.ok m, none)

/-- `SudoBroker.__init__` with an exported key, broker 70-72. -/
def restore (l : Lib) (pem : l.Pem) (passphrase : List Nat) : Except Err Key :=
  match l.unlock pem passphrase with
  | none => .error .passphrase
  | some k => .ok k

/-- `SudoBroker.export_key` and `get_master_pem`, broker 76-78, 96-105. -/
def exportKey (l : Lib) (k : Key) (passphrase : List Nat) : l.Pem := l.lock k passphrase

/-- `SudoBroker.decrypt_password`, broker 85-94. -/
def decryptPassword (k : Key) (c : List Nat) : Except Err Str :=
  match k.decrypt c with
  | .error e => .error e
  | .ok m =>
    match Stream.decode m with
    | none => .error .unicode
    | some t => .ok t

/-- What the controller writes to sudo: ctrl 1545-1547, with `get_decrypted_password`, assistant2 252-255. -/
def sudoInput (k : Key) (c : List Nat) : Except Err (List Nat) :=
  match decryptPassword k c with
  | .error e => .error e
  | .ok t => .ok (Stream.encode (t ++ ['\n']))

/-- `SudoProvider`: the public key, the encrypted password, the passphrase; and how often the user was asked. (broker 116-120) -/
structure Provider where
  key : Nat × Nat
  enc : Option (List Nat)
  passphrase : Option Str
  asked : Nat
deriving DecidableEq

/-- `SudoProvider.__init__`, broker 116-120. -/
def Provider.new (key : Nat × Nat) : Provider := ⟨key, none, none, 0⟩

/-- `SudoProvider.ask_for_password`, broker 122-134; `typed` is what `getpass` gives. -/
def Provider.ask (p : Provider) (l : Lib) (enc : Enc) (typed : Str) : Except Err Unit × Provider :=
  let p := { p with asked := p.asked + 1 }
  match enc.encode typed with
  | .error e => (.error e, p)
  | .ok bs =>
    let p := { p with passphrase := some (l.sha bs) }
    match encrypt p.key bs with
    | .error e => (.error e, p)
    | .ok c => (.ok (), { p with enc := some c })

/-- `SudoProvider.encrypted_password`, broker 136-140. A tuple with one element is true. -/
def Provider.encrypted (p : Provider) (l : Lib) (enc : Enc) (typed : Str) : Except Err (Option (List Nat)) × Provider :=
  match p.enc with
  | some c => (.ok (some c), p)
  | none =>
    match p.ask l enc typed with
    | (.error e, q) => (.error e, q)
    | (.ok (), q) => (.ok q.enc, q)

/-- `SudoProvider.get_master_passphrase`, broker 142-153. -/
def Provider.masterPassphrase (p : Provider) (temp : Nat × Nat) : Except Err (List Nat) :=
  match p.passphrase with
  | none => .error .attribute
  | some t => encrypt temp (Stream.encode t)

end Verif.Password
