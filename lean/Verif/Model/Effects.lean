import Verif.Model.Overrides

/-! # The overrides of test plans over the life of a session

Models `SessionManager.test_plans` with `add_device_context`, `remove_device_context` and
`_propagate_test_plans` (`plainbox/impl/session/manager.py`), and what `SessionDeviceContext` does
with the overrides (`plainbox/impl/session/state.py`): `set_test_plan_list`, the cached override map
and the update of jobs that are added. Signals call their first responder and then the connected
listeners, and exceptions of these reach the caller.

Simplified: the units of the context other than jobs, the checksums and siblings (see `Device`), and
the mandatory jobs (see `Narrow`). Test plans are compared by checksum; they are numbers here, with
`tbl` saying what they contain. -/

namespace Verif.Effects

open Verif.Overrides
open Verif.Pattern (Str)

/-- A `SessionDeviceContext`, state.py 231-282: `job_state_map` (in the order of `job_list`) with the
override fields, the keys of `_unit_id_map`, `_test_plan_list`, and `_shared_cache['override_map']`. -/
structure Ctx where
  jobs : List (Str × Eff)
  ids : List Str
  plans : List Nat
  cache : Option OMap
deriving DecidableEq

/-- A new context, state.py 231-273: with a state that has these jobs, or without jobs. -/
def Ctx.fresh (ids : List Str) : Ctx := ⟨ids.map fun i => (i, .initial), ids, [], none⟩

/-- Exceptions: those of the override update; `_unit_id_map` without the id (`KeyError`); a unit that
is not there, another device context (`ValueError`). (state.py 433-446, 526-530, manager.py 383-386, 437-441) -/
inductive Err
  | raised (e : Exc)
  | keyError
  | valueError
deriving DecidableEq

/-- `_compute_override_map`, state.py 588-595. -/
def mapOf (tbl : Nat → Plan) (plans : List Nat) : OMap := computeOverrideMap (plans.map tbl)

/-- `override_map`, state.py 342-358, with `compute_shared`, state.py 532-556: the map, and the context
that remembers it. -/
def overrideMap (tbl : Nat → Plan) (c : Ctx) : OMap × Ctx :=
  match c.cache with
  | some m => (m, c)
  | none => (mapOf tbl c.plans, { c with cache := some (mapOf tbl c.plans) })

/-- `set_test_plan_list`, state.py 360-379, with `_invalidate_override_map`, state.py 597-599, and
`_bulk_override_update`, state.py 601-610: the map is looked up when there is a job. -/
def setPlans (rx : Rx) (tbl : Nat → Plan) (c : Ctx) (l : List Nat) : Ctx × Option Err :=
  let c := { c with
    plans := l
    cache := none }
  if c.jobs = [] then (c, none)
  else
    let (m, c) := overrideMap tbl c
    let r := bulkUpdate rx m c.jobs
    ({ c with jobs := r.1 }, r.2.map .raised)

/-- `_add_job_unit`, state.py 1085-1109, with `on_unit_added` and `on_job_added`, state.py 511-524, and
`_override_update`, state.py 612-616. A job that is there already is left alone. When the update
raises, `_unit_id_map` is not updated. -/
def addJob (rx : Rx) (tbl : Nat → Plan) (c : Ctx) (id : Str) : Ctx × Option Err :=
  if id ∈ c.jobs.map (·.1) then (c, none)
  else
    let (m, c) := overrideMap tbl c
    match overrideUpdate rx id .initial m with
    | (e, none) => ({ c with
        jobs := c.jobs ++ [(id, e)]
        ids := c.ids ++ [id] }, none)
    | (e, some x) => ({ c with jobs := c.jobs ++ [(id, e)] }, some (.raised x))

/-- `remove_unit`, state.py 433-446, 1183-1214, with `on_unit_removed`, state.py 526-530: when
`_unit_id_map` does not have the id, the unit has left `unit_list` and all the rest stays. That it has
left is not represented: a second removal raises `ValueError`, not `KeyError`. -/
def removeJob (c : Ctx) (id : Str) : Ctx × Option Err :=
  if id ∈ c.jobs.map (·.1) then
    if id ∈ c.ids then
      ({ c with
        jobs := c.jobs.filter fun x => decide (x.1 ≠ id)
        ids := c.ids.filter fun i => decide (i ≠ id) }, none)
    else (c, some .keyError)
  else (c, some .valueError)

/-- The manager's `test_plans`, and its device context if it has one; the contexts are all those the
application has made. (manager.py 106-163) -/
structure World where
  ctxs : List Ctx
  here : Option Nat
  plans : List Nat
deriving DecidableEq

/-- Calls of the application. (state.py 231-273, 411-446, manager.py 140-163, 366-415) -/
inductive Op
  | create (ids : List Str)
  | add (k : Nat) (id : Str)
  | remove (k : Nat) (id : Str)
  | assign (l : List Nat)
  | attach (k : Nat)
  | detach
deriving DecidableEq

/-- A call on one of the contexts.
(No counterpart in the code: the contexts are objects of their own.) -/
def World.on (w : World) (k : Nat) (f : Ctx → Ctx × Option Err) : World × Option Err :=
  match w.ctxs[k]? with
  | none => (w, none)
  | some c => ({ w with ctxs := w.ctxs.set k (f c).1 }, (f c).2)

/-- `_propagate_test_plans`, manager.py 443-447. -/
def World.propagate (rx : Rx) (tbl : Nat → Plan) (w : World) : World × Option Err :=
  match w.here with
  | none => (w, none)
  | some k => w.on k fun c => setPlans rx tbl c w.plans

/-- One call: a new context; `SessionState.add_unit` and `remove_unit` for jobs; the assignment of
`test_plans` (manager.py 140-163, with `Field.__set__`, pod.py 318-345: equal values are not assigned);
`add_device_context`, manager.py 366-389 and 417-425: all devices are `None`, so a second context is
refused; `remove_device_context`, manager.py 401-415 and 427-435, of the context that is there. -/
def World.step (rx : Rx) (tbl : Nat → Plan) (w : World) : Op → World × Option Err
  | .create ids => ({ w with ctxs := w.ctxs ++ [.fresh ids] }, none)
  | .add k id => w.on k fun c => addJob rx tbl c id
  | .remove k id => w.on k fun c => removeJob c id
  | .assign l => if l = w.plans then (w, none) else World.propagate rx tbl { w with plans := l }
  | .attach k => match w.here with
    | some _ => (w, some .valueError)
    | none => match w.ctxs[k]? with
      | none => (w, none)
      | some _ => World.propagate rx tbl { w with here := some k }
  | .detach => ({ w with here := none }, none)

/-- A new manager without a context, or with one that was made of a state with these jobs, manager.py
191-217, 219-243, 245-272. -/
def World.init : Option (List Str) → World
  | none => ⟨[], none, []⟩
  | some ids => ⟨[.fresh ids], some 0, []⟩

/-- A history, the latest call last; the application goes on after exceptions.
(No counterpart in the code: any sequence of the calls modelled here.) -/
def World.run (rx : Rx) (tbl : Nat → Plan) (w : World) (ops : List Op) : World :=
  ops.foldl (fun w op => (w.step rx tbl op).1) w

/-- Calls on one context. (state.py 360-379, 1038-1083, 1183-1214) -/
inductive Ev
  | add (id : Str)
  | remove (id : Str)
  | set (l : List Nat)
deriving DecidableEq

/-- One call on a context: `add_unit` and `remove_unit` of its state (state.py 1038-1083, 1183-1214) and
`set_test_plan_list` (state.py 360-379). -/
def Ctx.step (rx : Rx) (tbl : Nat → Plan) (c : Ctx) : Ev → Ctx × Option Err
  | .add id => addJob rx tbl c id
  | .remove id => removeJob c id
  | .set l => setPlans rx tbl c l

/-- A history of calls on one context; the application goes on after exceptions.
(No counterpart in the code: any sequence of the calls modelled here.) -/
def Ctx.run (rx : Rx) (tbl : Nat → Plan) (c : Ctx) (evs : List Ev) : Ctx :=
  evs.foldl (fun c ev => (c.step rx tbl ev).1) c

end Verif.Effects
