import Verif.Model.Session

/-!
# The device context: units and providers

Model of `SessionDeviceContext` (plainbox/impl/session/state.py, "state", 194-625): adding and removing units
and providers and looking units up, together with the parts of `SessionState` that these methods call
(`add_unit`, `_add_job_unit`, `_add_job_siblings_unit`, `remove_unit`, state 1038-1214).

Units are compared by checksum (`Unit.__eq__`, plainbox/impl/unit/unit.py 451-462).  The fields of job states,
translations, the log and overrides are left out (for overrides see `Verif.Model.Overrides`); the
exceptions that overrides can raise are left out too.
-/

namespace Verif.Device

open Session (setKey delKey)

/-- Kinds of units, as far as the context tells them apart: jobs, other subclasses of `UnitWithId`,
templates, which have the attribute `id` but are no `UnitWithId` (template.py 81, 177), and files and
packaging metadata, which have no `id` (file.py 81, packaging.py 133). -/
inductive Kind where
  | job | withId | template | bare
deriving DecidableEq, Repr

/-- `isinstance(unit, UnitWithId)`. (state 512-518) -/
def Kind.hasMap : Kind → Bool
  | .job | .withId => true
  | _ => false

/-- A job with the siblings that `_add_job_siblings_unit` makes of it, in order, each with its own.
(state 1085-1181) -/
inductive Tree (U : Type) where
  | node (u : U) (kids : List (Tree U))

/-- The context and the session state: `unit_list` (shared by both), `job_list`, the jobs of
`job_state_map`, `_unit_id_map`, `_already_added_checksums`, the ids of `run_list` and `_provider_list`.
(state 231-276, 754-803) -/
structure Ctx (U C I P : Type) where
  units : List U
  jobs : List U
  states : List (I × U)
  idMap : List (I × U)
  sums : List C
  run : List I
  providers : List P
deriving DecidableEq, Repr

/-- What units are: checksum, kind, id, the siblings a job has; and whether recomputing readiness raises for
another reason than a job that is gone (a bad resource program, `Verif.Session`).
(No counterpart in the code: what unit.py 383-462, 800-847 compute for each unit.) -/
structure World (U C I P : Type) where
  sum : U → C
  kind : U → Kind
  id : U → I
  kids : U → List (Tree U)
  unitsOf : P → List U
  bad : Ctx U C I P → Bool

/-- Exceptions. (state 381-446, 1038-1214) -/
inductive Err where
  /-- `ValueError`: the same unit twice, state 424-426. -/
  | twice
  /-- `AttributeError`: the message of that error needs `unit.id`. -/
  | noId
  /-- `DependencyDuplicateError`, state 1103. -/
  | clash
  /-- `ValueError`: the unit is not in this context, state 440-442. -/
  | absent
  /-- `KeyError` or `ValueError` of a container. -/
  | missing
  /-- What `_recompute_job_readiness` raised. -/
  | recompute
  /-- `ValueError`: the same provider twice, state 399-402. -/
  | provider
deriving DecidableEq, Repr

variable {U C I P : Type} [DecidableEq C] [DecidableEq I] [DecidableEq P]

/-- `unit in list`, by checksum. (Uses `Unit.__eq__`, unit.py 451-462, as in state 1038-1214.) -/
def World.has (w : World U C I P) (l : List U) (u : U) : Bool := l.any fun v => decide (w.sum v = w.sum u)

/-- `list.remove(unit)`, by checksum. (Uses `Unit.__eq__`, unit.py 451-462, as in state 1038-1214.) -/
def World.drop (w : World U C I P) (l : List U) (u : U) : List U := l.eraseP fun v => decide (w.sum v = w.sum u)

/-- `_recompute_job_readiness` raises, state 1434-1458. -/
def World.fails (w : World U C I P) (s : Ctx U C I P) : Bool :=
  s.run.any (fun i => (s.states.lookup i).isNone) || w.bad s

/-- `finally: if recompute: self._recompute_job_readiness()`, state 1106-1109: an exception raised here
replaces the one being raised. -/
def World.finish (w : World U C I P) (rc : Bool) (r : Ctx U C I P × Option Err) : Ctx U C I P × Option Err :=
  if rc && w.fails r.1 then (r.1, some .recompute) else r

/-- Registration of a job, state 1091-1096, with `SessionDeviceContext.on_unit_added`, state 512-518. -/
def World.register (w : World U C I P) (s : Ctx U C I P) (u : U) : Ctx U C I P :=
  { s with states := s.states ++ [(w.id u, u)], jobs := s.jobs ++ [u], units := s.units ++ [u],
           idMap := setKey s.idMap (w.id u) u }

mutual

/-- `_add_job_unit`, state 1085-1109. -/
def World.addTree (w : World U C I P) (rc : Bool) (s : Ctx U C I P) : Tree U → Ctx U C I P × Option Err
  | .node u kids =>
    w.finish rc (match s.states.lookup (w.id u) with
      | none => w.addForest rc (w.register s u) kids
      | some v => if w.sum u ≠ w.sum v then (s, some .clash) else w.addForest rc s kids)

/-- `_add_job_siblings_unit`, state 1111-1181. -/
def World.addForest (w : World U C I P) (rc : Bool) (s : Ctx U C I P) : List (Tree U) → Ctx U C I P × Option Err
  | [] => (s, none)
  | t :: ts =>
    match w.addTree rc s t with
    | (s', some e) => (s', some e)
    | (s', none) => w.addForest rc s' ts

end

/-- `SessionState.add_unit`, state 1038-1083, with `SessionDeviceContext.on_unit_added`, state 512-518. -/
def World.stateAdd (w : World U C I P) (rc : Bool) (s : Ctx U C I P) (u : U) : Ctx U C I P × Option Err :=
  if w.kind u = .job then w.addTree rc s (.node u (w.kids u))
  else ({ s with units := s.units ++ [u],
                 idMap := if (w.kind u).hasMap then setKey s.idMap (w.id u) u else s.idMap }, none)

/-- `SessionDeviceContext.add_unit`, state 411-429. -/
def World.add (w : World U C I P) (rc : Bool) (s : Ctx U C I P) (u : U) : Ctx U C I P × Option Err :=
  if w.sum u ∈ s.sums then (s, some (if w.kind u = .bare then .noId else .twice))
  else w.stateAdd rc { s with sums := s.sums ++ [w.sum u] } u

/-- `SessionState.remove_unit`, state 1183-1214, with `SessionDeviceContext.on_unit_removed`, state 526-530. -/
def World.stateRemove (w : World U C I P) (s : Ctx U C I P) (u : U) : Ctx U C I P × Option Err :=
  if !w.has s.units u then (s, some .missing)
  else
    let s1 := { s with units := w.drop s.units u }
    if (w.kind u).hasMap && (s.idMap.lookup (w.id u)).isNone then (s1, some .missing)
    else
      let s2 := { s1 with idMap := if (w.kind u).hasMap then delKey s.idMap (w.id u) else s.idMap }
      if w.kind u = .job then
        if !w.has s.jobs u then (s2, some .missing)
        else
          let s3 := { s2 with jobs := w.drop s.jobs u }
          if (s.states.lookup (w.id u)).isNone then (s3, some .missing)
          else
            let s4 := { s3 with states := delKey s.states (w.id u) }
            if w.fails s4 then (s4, some .recompute) else (s4, none)
      else (s2, none)

/-- `SessionDeviceContext.remove_unit`, state 433-446. -/
def World.remove (w : World U C I P) (s : Ctx U C I P) (u : U) : Ctx U C I P × Option Err :=
  if !w.has s.units u then (s, some .absent)
  else if w.sum u ∉ s.sums then (s, some .missing)
  else w.stateRemove { s with sums := s.sums.filter (· ≠ w.sum u) } u

/-- The loop of `add_provider`, state 406-408. -/
def World.addUnits (w : World U C I P) (s : Ctx U C I P) : List U → Ctx U C I P × Option Err
  | [] => (s, none)
  | u :: us =>
    match w.add false s u with
    | (s', some e) => (s', some e)
    | (s', none) => w.addUnits s' us

/-- `add_provider`, state 381-409; providers are compared by identity. -/
def World.addProvider (w : World U C I P) (s : Ctx U C I P) (p : P) (addUnits : Bool) : Ctx U C I P × Option Err :=
  if p ∈ s.providers then (s, some .provider)
  else
    let s1 := { s with providers := s.providers ++ [p] }
    match (if addUnits then w.addUnits s1 (w.unitsOf p) else (s1, none)) with
    | (s2, some e) => (s2, some e)
    | (s2, none) => if w.fails s2 then (s2, some .recompute) else (s2, none)

/-- `get_unit` without a kind, state 450-468; `none` is `KeyError`. -/
def Ctx.getUnit (s : Ctx U C I P) (i : I) : Option U := s.idMap.lookup i

/-- A new context, state 231-273: with `state` given, whose units are `l`, or without (`l` is empty). -/
def World.init (w : World U C I P) (l : List U) : Ctx U C I P :=
  { units := l, jobs := l.filter fun u => w.kind u = .job,
    states := (l.filter fun u => w.kind u = .job).map fun u => (w.id u, u),
    idMap := (l.filter fun u => (w.kind u).hasMap).foldl (fun m u => setKey m (w.id u) u) [],
    sums := l.map w.sum, run := [], providers := [] }

/-- Calls: on the context; `generate` is `SessionState.add_unit` called while a template is instantiated
(ctrl.py 320); `select` replaces the run list (`update_desired_job_list`). -/
inductive Op (U I P : Type) where
  | add (u : U) (recompute : Bool)
  | remove (u : U)
  | provider (p : P) (addUnits : Bool)
  | generate (u : U)
  | select (ids : List I)

/-- One call. (state 381-446, 883-943) -/
def World.step (w : World U C I P) (s : Ctx U C I P) : Op U I P → Ctx U C I P × Option Err
  | .add u rc => w.add rc s u
  | .remove u => w.remove s u
  | .provider p a => w.addProvider s p a
  | .generate u => w.stateAdd true s u
  | .select ids => ({ s with run := ids }, none)

/-- A history; the application goes on after exceptions. (Any use of the context; no counterpart in the code.) -/
def World.run (w : World U C I P) (s : Ctx U C I P) (ops : List (Op U I P)) : Ctx U C I P :=
  ops.foldl (fun s op => (w.step s op).1) s

end Verif.Device
