import Verif.Model.Brine
import Verif.Model.Sort

/-! # The registry server of rpyc (`plainbox/vendor/rpyc/utils/registry.py`)

The servers that offer a service register with the registry server, with the names of their services and the port they
listen on; clients ask it for the addresses of a service.

Simplified: times are whole numbers; callbacks that raise are logged by the code and are not distinguished here; the
text of a log message is not modelled. -/

namespace Verif.Registry

open Verif.Brine (Val Bytes)

/-- A text, by code points. (The names of services, registry.py 56-111.) -/
abbrev Text := List Nat

/-! ## Dictionaries -/

/-- `d.get(k)` of a dictionary in the order of insertion (registry.py 58-60, 70-71, 82, 87). -/
def get {K V : Type} [DecidableEq K] (k : K) : List (K × V) → Option V
  | [] => none
  | (k', v) :: l => if k' = k then some v else get k l

/-- `d[k] = v` (registry.py 59, 61). -/
def put {K V : Type} [DecidableEq K] (k : K) (v : V) : List (K × V) → List (K × V)
  | [] => [(k, v)]
  | (k', v') :: l => if k' = k then (k, v) :: l else (k', v') :: put k v l

/-- `d.pop(k, None)`, `del d[k]` (registry.py 70, 72). -/
def del {K V : Type} [DecidableEq K] (k : K) (l : List (K × V)) : List (K × V) := l.filter fun p => !decide (p.1 = k)

/-! ## The table -/

variable {A : Type} [DecidableEq A]

/-- `self.services`: for every name the addresses with the time of their last registration (registry.py 35, 56-61). -/
abbrev Table (A : Type) := List (Text × List (A × Nat))

/-- The callbacks (registry.py 48-54). -/
inductive Event (A : Type)
  | added (name : Text) (a : A)
  | removed (name : Text) (a : A)
deriving DecidableEq, Repr

/-- `_add_service`, registry.py 56-66. -/
def addService (now : Nat) (name : Text) (a : A) (t : Table A) : Table A × List (Event A) :=
  let d := (get name t).getD []
  let new := (get a d).isNone
  (put name (put a now d) t, if new then [.added name a] else [])

/-- `_remove_service`, registry.py 68-76; `none` is the `KeyError` for a name that is not in the table. -/
def removeService (name : Text) (a : A) (t : Table A) : Option (Table A × List (Event A)) :=
  (get name t).bind fun d =>
    if (del a d).isEmpty then some (del name t, [.removed name a])
    else some (put name (del a d) t, [])

/-- The loop of `cmd_query`, registry.py 89-94: the stale servers are removed, the others are the answer.  `timeout` is
the pruning timeout; `t < time.time() - timeout`. -/
def prune (timeout now : Nat) (name : Text) : List (A × Nat) → Table A → Option (List A × Table A × List (Event A))
  | [], t => some ([], t, [])
  | (a, s) :: rest, t =>
    if s + timeout < now then
      (removeService name a t).bind fun r =>
        (prune timeout now name rest r.1).map fun q => (q.1, q.2.1, r.2 ++ q.2.2)
    else (prune timeout now name rest t).map fun q => (a :: q.1, q.2.1, q.2.2)

/-- `cmd_query`, registry.py 78-97; `upper` is `str.upper`. -/
def query (upper : Text → Text) (timeout now : Nat) (name : Text) (t : Table A) :
    Option (List A × Table A × List (Event A)) :=
  match get (upper name) t with
  | none => some ([], t, [])
  | some d => prune timeout now (upper name) (Sort.sortBy (fun x y => decide (x.2 ≤ y.2)) d) t

/-- `cmd_register`, registry.py 99-104. -/
def register (upper : Text → Text) (now : Nat) (names : List Text) (a : A) (t : Table A) : Table A × List (Event A) :=
  match names with
  | [] => (t, [])
  | n :: names =>
    let r := addService now (upper n) a t
    let q := register upper now names a r.1
    (q.1, r.2 ++ q.2)

/-- The loop of `cmd_unregister`, registry.py 109-110. -/
def unregisterAll (a : A) : List Text → Table A → Option (Table A × List (Event A))
  | [], t => some (t, [])
  | n :: names, t =>
    (removeService n a t).bind fun r => (unregisterAll a names r.1).map fun q => (q.1, r.2 ++ q.2)

/-- `cmd_unregister`, registry.py 106-111. -/
def unregister (a : A) (t : Table A) : Option (Table A × List (Event A)) := unregisterAll a (t.map (·.1)) t

/-- A command from an address (registry.py 78-111). -/
inductive Cmd (A : Type)
  | query (name : Text)
  | register (names : List Text) (a : A)
  | unregister (a : A)
deriving DecidableEq, Repr

/-- One command at some time: the new table and the callbacks (registry.py 78-111, 136-142). -/
def step (upper : Text → Text) (timeout : Nat) (t : Table A) : Nat × Cmd A → Option (Table A × List (Event A))
  | (now, .query n) => (query upper timeout now n t).map (·.2)
  | (now, .register ns a) => some (register upper now ns a t)
  | (_, .unregister a) => unregister a t

/-- The table after some commands (`_work`, registry.py 119-142). -/
def run (upper : Text → Text) (timeout : Nat) : List (Nat × Cmd A) → Table A → Option (Table A)
  | [], t => some t
  | c :: cs, t => (step upper timeout t c).bind fun r => run upper timeout cs r.1

/-! ## Packets -/

/-- An address: the host a packet comes from, and the port (registry.py 103, 110, 137). -/
abbrev Addr := Text × Int

/-- What a packet leads to: it is ignored, or an exception of the command is logged (registry.py 125, 128, 132, 139);
there is a reply; an exception leaves `_work`, and the server is closed (registry.py 129, 152-160); or the model
does not say, for ports that are not numbers. -/
inductive Effect
  | ignored
  | replied (t : Table Addr) (reply : Val)
  | died
  | unmodelled

/-- `magic, cmd, args = …` (registry.py 124).  The order of a set is that of the model. -/
def three : Val → Option (Val × Val × Val)
  | v =>
    match Brine.items v with
    | .ok [a, b, c] => some (a, b, c)
    | _ => none

/-- `str.lower`, for ASCII letters; others do not occur in the names of the commands. (registry.py 130)
Simplified: `'K'.lower()` of the Kelvin sign is `k`, which is in no name of a command either. -/
def lower (s : Text) : Text := s.map fun c => if 65 ≤ c ∧ c ≤ 90 then c + 32 else c

/-- The texts of a sequence (`", ".join(names)`, registry.py 101). -/
def texts : List Val → Option (List Text)
  | [] => some []
  | .str s :: l => (texts l).map (s :: ·)
  | _ :: _ => none

/-- A port (registry.py 103, 110): `True` is equal to 1. -/
def port : Val → Option Int
  | .int i => some i
  | .bool b => some (if b then 1 else 0)
  | _ => none

/-- The value of an address in a reply (registry.py 97). -/
def addrVal (a : Addr) : Val := .tup [.str a.1, .int a.2]

/-- `cmdfunc(addrinfo[0], *args)`, registry.py 130-142; a command with other arguments raises. -/
def command (upper : Text → Text) (timeout now : Nat) (host : Text) (t : Table Addr) (cmd : Text) (args : List Val) :
    Effect :=
  if lower cmd = "query".toList.map Char.toNat then
    match args with
    | [.str n] =>
      match query upper timeout now n t with
      | none => .ignored
      | some r => .replied r.2.1 (.tup (r.1.map addrVal))
    | _ => .ignored
  else if lower cmd = "register".toList.map Char.toNat then
    match args with
    | [ns, p] =>
      match Brine.items ns with
      | .error _ => .ignored
      | .ok l =>
        match texts l with
        | none => .ignored
        | some names =>
          match port p with
          | none => .unmodelled
          | some p => .replied (register upper now names (host, p) t).1 (.str ("OK".toList.map Char.toNat))
    | _ => .ignored
  else if lower cmd = "unregister".toList.map Char.toNat then
    match args with
    | [p] =>
      match port p with
      | none => .unmodelled
      | some p =>
        match unregister (host, p) t with
        | none => .ignored
        | some r => .replied r.1 (.str ("OK".toList.map Char.toNat))
    | _ => .ignored
  else .ignored

/-- What `_work` does with a packet, registry.py 122-142.  `cmd.lower()` of bytes is bytes, and no command has the name
`b'…'`; other values have no `lower`. -/
def packet (upper : Text → Text) (env : Brine.Env) (timeout now : Nat) (host : Text) (t : Table Addr) (data : Bytes) :
    Effect :=
  match Brine.loads env data with
  | .error _ => .ignored
  | .ok v =>
    match three v with
    | none => .ignored
    | some (.str magic, cmd, args) =>
      if magic = "RPYC".toList.map Char.toNat then
        match cmd with
        | .str c =>
          match Brine.items args with
          | .error _ => .ignored
          | .ok l => command upper timeout now host t c l
        | .bytes _ => .ignored
        | _ => .died
      else .ignored
    | some _ => .ignored

/-- `_work`, registry.py 119-142: the replies to the packets, each from a host and at some time.  A reply that cannot be
dumped raises outside the `try`, too. -/
def work (upper : Text → Text) (env : Brine.Env) (timeout : Nat) : List (Nat × Text × Bytes) → Table Addr → List (Text × Bytes)
  | [], _ => []
  | (now, host, data) :: rest, t =>
    match packet upper env timeout now host t data with
    | .ignored => work upper env timeout rest t
    | .replied t' v =>
      match Brine.dump v with
      | .ok b => (host, b) :: work upper env timeout rest t'
      | .error _ => []
    | .died => []
    | .unmodelled => []

end Verif.Registry
