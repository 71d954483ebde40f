import Verif.Basic

/-!
# Remote objects

Model of the parts of the vendored rpyc (plainbox/vendor/rpyc) that keep objects for the other side of a
connection: `RefCountingColl` (lib/colls.py, "colls"), `_box`, `_unbox`, `_handle_del`, `_check_attr` and
`_access_attr` (core/protocol.py, "protocol") and `BaseNetref` (core/netref.py, "netref").

One side owns the objects, the other has proxies; the other direction is the same.  Messages arrive unchanged
and in order (C79) and are handled one after the other.  An object is known by its address (`id`), which another
object may get when the first is no longer alive.

Simplified: messages and proxies carry, besides the address, the object that was meant when the reference was
made; the code does not have it and the model never looks at it.  A use is any request with the address: a call,
an attribute, an inspection, an argument (`LABEL_LOCAL_REF`).
-/

namespace Verif.Netref

/-! ## Reference counts -/

/-- `[obj, n]`, colls 69. -/
structure Slot (O : Type) where
  obj : O
  n : Nat
deriving DecidableEq, Repr

/-- `self._dict`, colls 61. -/
abbrev Coll (O : Type) := Nat → Option (Slot O)

variable {O : Type}

/-- `self._dict[key] = slot` (colls 72, 83) or `del self._dict[key]` (colls 80). -/
def set (c : Coll O) (k : Nat) (s : Option (Slot O)) : Coll O := fun i => if i = k then s else c i

/-- `add`, colls 64-72. -/
def add (c : Coll O) (k : Nat) (o : O) : Coll O :=
  match c k with
  | none => set c k (some ⟨o, 0⟩)
  | some s => set c k (some ⟨s.obj, s.n + 1⟩)

/-- `decref`, colls 76-83; `none`: `KeyError`. -/
def decref (c : Coll O) (k count : Nat) : Option (Coll O) :=
  match c k with
  | none => none
  | some s => if s.n < count then some (set c k none) else some (set c k (some ⟨s.obj, s.n - count⟩))

/-- `__getitem__`, colls 84-86; `none`: `KeyError`. -/
def getitem (c : Coll O) (k : Nat) : Option O := (c k).map (·.obj)

/-! ## Both sides -/

/-- A proxy that is alive: `____oid__` and `____refcount__` (netref 119-125), and the object that is meant. -/
structure Proxy (O : Type) where
  key : Nat
  count : Nat
  obj : O
deriving DecidableEq, Repr

/-- Requests to the owner: something that uses the object, or `HANDLE_DEL` with a count.
(protocol 304-341, 607-609, netref 126-133) -/
inductive Msg (O : Type)
  | use (key : Nat) (obj : O)
  | del (key count : Nat)
deriving DecidableEq, Repr

/-- The owner's `_local_objects` (protocol 151), what is on the way in both directions, and the proxies of the
other side that are alive (the connection's cache, protocol 153, is weak). -/
structure World (O : Type) where
  coll : Coll O
  /-- References on the way to the other side. -/
  refs : List (Nat × O)
  proxies : List (Proxy O)
  /-- Requests on the way to the owner. -/
  msgs : List (Msg O)

/-- How a request ends: with this object, with `KeyError`, or without an object. (protocol 304-424) -/
inductive Out (O : Type)
  | found (meant obj : O)
  | keyError
  | quiet
deriving DecidableEq, Repr

/-- What can happen.  `box`: the owner sends an object by reference (protocol 293-302).  `unbox`: the other side
receives a reference; it finds a proxy in its cache, the one at this position, or makes a new one, which may need
an inspection (protocol 315-338).  `use`: something is done with a proxy.  `drop`: a proxy dies (netref 127-134).
`serve`: the owner handles a request.  `disconnect`: `_cleanup` (protocol 179-192). -/
inductive Act (O : Type)
  | box (key : Nat) (obj : O)
  | unbox (cached : Option Nat) (inspect : Bool)
  | use (i : Nat)
  | drop (i : Nat)
  | serve
  | disconnect
deriving Repr

/-- One step; what is not possible changes nothing.  Two objects that are both alive have different addresses,
and the objects in the collection are alive: boxing another object with such an address is not possible.
(colls 64-86, protocol 179-210, 284-341, 607-609, netref 121-133) -/
def step [DecidableEq O] (a : Act O) (w : World O) : World O × Out O :=
  match a with
  | .box k o =>
    if (w.coll k).all (fun s => decide (s.obj = o)) then
      ({ w with
          coll := add w.coll k o
          refs := w.refs ++ [(k, o)] }, .quiet)
    else (w, .quiet)
  | .unbox cached inspect =>
    match w.refs with
    | [] => (w, .quiet)
    | (k, o) :: refs =>
      match cached with
      | some i =>
        match w.proxies[i]? with
        | none => (w, .quiet)
        | some p =>
          if p.key = k then
            ({ w with
                refs := refs
                proxies := w.proxies.set i { p with count := p.count + 1 } }, .quiet)
          else (w, .quiet)
      | none =>
        ({ w with
            refs := refs
            proxies := w.proxies ++ [⟨k, 1, o⟩]
            msgs := if inspect then w.msgs ++ [.use k o] else w.msgs }, .quiet)
  | .use i =>
    match w.proxies[i]? with
    | none => (w, .quiet)
    | some p => ({ w with msgs := w.msgs ++ [.use p.key p.obj] }, .quiet)
  | .drop i =>
    match w.proxies[i]? with
    | none => (w, .quiet)
    | some p =>
      ({ w with
          proxies := w.proxies.eraseIdx i
          msgs := w.msgs ++ [.del p.key p.count] }, .quiet)
  | .serve =>
    match w.msgs with
    | [] => (w, .quiet)
    | .use k o :: msgs =>
      ({ w with msgs := msgs }, match getitem w.coll k with | some x => .found o x | none => .keyError)
    | .del k _ :: msgs =>
      -- `_handle_del(oid, count)` does not use the count (protocol 607-608)
      match decref w.coll k 1 with
      | some c =>
        ({ w with
            coll := c
            msgs := msgs }, .quiet)
      | none => ({ w with msgs := msgs }, .keyError)
  | .disconnect => (⟨fun _ => none, [], [], []⟩, .quiet)

/-- Steps one after the other, with what they give.
(No counterpart in the code: any interleaving of the methods modelled here.) -/
def run [DecidableEq O] : List (Act O) → World O → World O × List (Out O)
  | [], w => (w, [])
  | a :: l, w => ((run l (step a w).1).1, (step a w).2 :: (run l (step a w).1).2)

/-- A new connection. (colls 59-61) -/
def start : World O := ⟨fun _ => none, [], [], []⟩

/-! ## Attributes -/

/-- The configuration, protocol 21-61. -/
structure Config where
  allowExposed : Bool
  allowAll : Bool
  allowSafe : Bool
  allowPublic : Bool
  safe : List (List Char)
  pref : List Char
  allowGet : Bool
  allowSet : Bool
  allowDel : Bool

/-- `DEFAULT_CONFIG`, protocol 21-44; the safe attributes are given. -/
def defaults (safe : List (List Char)) : Config where
  allowExposed := true
  allowAll := false
  allowSafe := true
  allowPublic := false
  safe := safe
  pref := "exposed_".toList
  allowGet := true
  allowSet := false
  allowDel := false

/-- `_check_attr`, protocol 562-576; `has` is `hasattr(obj, …)`, `none` is `False`. -/
def checkAttr (cfg : Config) (has : List Char → Bool) (name : List Char) : Option (List Char) :=
  let name2 := if cfg.pref.isPrefixOf name then name else cfg.pref ++ name
  if cfg.allowExposed && has name2 then some name2
  else if cfg.allowAll then some name
  else if cfg.allowSafe && cfg.safe.contains name then some name
  else if cfg.allowPublic && !("_".toList.isPrefixOf name) then some name
  else none

/-- `_handle_getattr`, `_handle_setattr`, `_handle_delattr`, protocol 629-634. -/
inductive Kind
  | get | set | del
deriving DecidableEq, Repr

/-- `self._config[param]`, protocol 592, with the parameters of protocol 629-634. -/
def Config.allows (cfg : Config) : Kind → Bool
  | .get => cfg.allowGet
  | .set => cfg.allowSet
  | .del => cfg.allowDel

/-- How an access ends: the operation is done on this attribute, the object's own `_rpyc_getattr` etc. is called
with the name, `AttributeError`, `TypeError`. (protocol 562-605) -/
inductive Access
  | done (name : List Char)
  | own (name : List Char)
  | attributeError
  | typeError
deriving DecidableEq, Repr

/-- `_access_attr`, protocol 578-596.  The name is `none` if it is neither text nor bytes. -/
def access (cfg : Config) (has : List Char → Bool) (overrides : Kind → Bool) (kind : Kind) (name : Option (List Char)) :
    Access :=
  match name with
  | none => .typeError
  | some name =>
    if overrides kind then .own name
    else
      match checkAttr cfg has name with
      | none => .attributeError
      | some name2 => if name2 = [] ∨ !cfg.allows kind then .attributeError else .done name2

end Verif.Netref
