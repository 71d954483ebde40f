/-!
# Running a command with delegates

Model of `ExternalCommandWithDelegate` (plainbox/vendor/extcmd/__init__.py, "extcmd" below), of the
variant of its `call` in the controller that feeds a password to sudo (plainbox/impl/ctrl.py 1517-1567,
"ctrl"), and of the delegates the job runner attaches (plainbox/impl/runner.py, "runner").

The four threads and the process are interleaved: a schedule is a list of actions, each one atomic step
of somebody.  Simplifications: a `readline()` takes its line from the pipe in one step, when the line is
complete or the pipe is closed (the buffer of the file object is part of the pipe); calls of the
delegate are atomic; reading a pipe does not fail (nobody closes it: `do_close`, extcmd 530-561, is only
ever true on the way out of the function); logging is left out.
-/

namespace Verif.Extcmd

/-- What goes through a pipe (extcmd 595-614). -/
abbrev Bytes := List (Fin 256)

/-- `proc.stdout` and `proc.stderr`. (extcmd 470-580) -/
inductive Stream
  | out | err
deriving DecidableEq, Repr

/-- What a delegate is told (extcmd 279-324). -/
inductive Ev
  | begin
  | line (s : Stream) (d : Bytes)
  | chunk (s : Stream) (d : Bytes)
  | interrupt
  | ended (rc : Int)
  | abnormal (sig : Int)
deriving DecidableEq, Repr

/-- How `call` was set up: `CHUNKED_IO` (extcmd 437), whether it is the variant of the sudo controller,
and when the delegate raises an exception, given what it was told before. -/
structure Cfg where
  chunked : Bool
  sudo : Bool
  raises : List Ev → Ev → Bool

/-- Where the thread that runs `call` is; `exn` tells whether an exception is being propagated.
(extcmd 470-580, ctrl 1520-1564) -/
inductive Pc
  | begin | popen | startW | startO | startE | wait | signalled | cleanup
  | joinO (exn : Bool) | joinE (exn : Bool) | putNone (exn : Bool) | joinW (exn : Bool)
  | after
  | returned (rc : Int)
  | raised
deriving DecidableEq, Repr

/-- A reader thread: not started, about to read, about to put what it read into the queue, finished.
(extcmd 595-614) -/
inductive Rd
  | notStarted | running | holding (d : Bytes) | finished
deriving DecidableEq, Repr

/-- The worker thread: not started, about to get from the queue, about to call the delegate, finished or
killed by an exception of the delegate. (extcmd 616-626) -/
inductive Wk
  | notStarted | waiting | holding (s : Stream) (d : Bytes) | dead
deriving DecidableEq, Repr

/-- The thread that runs `call`, the readers, the worker, the queue, the process, and what the delegate was told
(extcmd 470-626). -/
structure St where
  pc : Pc
  rd : Stream → Rd
  wk : Wk
  /-- `self._queue` -/
  queue : List (Option (Stream × Bytes))
  /-- was the process started? -/
  spawned : Bool
  /-- what was written and not read yet, and whether the writing end is closed -/
  pipe : Stream → Bytes
  closed : Stream → Bool
  /-- everything written so far (not part of the program) -/
  wrote : Stream → Bytes
  /-- exit status, as `proc.returncode` -/
  exited : Option Int
  /-- what the delegate was told -/
  log : List Ev

/-- Change a function of the stream at one stream. (No counterpart in the code.) -/
def upd {α : Type} (f : Stream → α) (s : Stream) (a : α) : Stream → α :=
  fun t => if t = s then a else f t

/-- Up to and including the first newline. (`stream.readline()`, extcmd 595-614.) -/
def takeLine : Bytes → Bytes
  | [] => []
  | b :: l => if b = 10 then [b] else b :: takeLine l

/-- `stream.read(1)` or `stream.readline()` (extcmd 599-602); `none` means that it blocks. -/
def readData (chunked closed : Bool) (pipe : Bytes) : Option Bytes :=
  if chunked then
    match pipe with
    | b :: _ => some [b]
    | [] => if closed then some [] else none
  else if (10 : Fin 256) ∈ pipe then some (takeLine pipe)
  else if closed then some pipe else none

/-- The choice of `on_line` or `on_chunk` (extcmd 622-625). -/
def dataEv (chunked : Bool) (s : Stream) (d : Bytes) : Ev :=
  if chunked then .chunk s d else .line s d

/-- The last notification: extcmd 573-579; ctrl 1565 always calls `on_end`. -/
def endEv (sudo : Bool) (rc : Int) : Ev :=
  if sudo then .ended rc else if rc < 0 then .abnormal (-rc) else .ended rc

/-- Where an exception leads: the `finally` clauses of extcmd 491-571 and ctrl 1538-1563. -/
def abort (sudo : Bool) : Pc → Pc
  | .popen | .startW | .startO | .startE => if sudo then .raised else .cleanup
  | .wait | .signalled => .cleanup
  | _ => .raised

/-- What can happen next. (extcmd 470-626) -/
inductive Act
  /-- the next statement of `call`; `fail` when an operation that can fail does -/
  | main (fail : Bool)
  /-- CTRL-C -/
  | interrupt
  /-- a reader thread reads, or puts into the queue -/
  | read (s : Stream)
  | put (s : Stream)
  /-- the worker thread gets from the queue, or calls the delegate -/
  | get
  | deliver
  /-- the command, or a process it started, writes or closes a pipe; the command ends -/
  | write (s : Stream) (d : Bytes)
  | close (s : Stream)
  | exit (rc : Int)
  /-- `communicate` of the sudo controller reads from a pipe -/
  | steal (s : Stream) (n : Nat)
deriving Repr

/-- One statement of `call`, extcmd 470-580 and ctrl 1517-1567. -/
def mainStep (c : Cfg) (fail : Bool) (st : St) : Option St :=
  match st.pc with
  | .begin => some { st with log := st.log ++ [.begin],
                             pc := if c.raises st.log .begin then .raised else .popen }
  | .popen => if fail then some { st with pc := abort c.sudo st.pc }
      else some { st with spawned := true, pc := .startW }
  | .startW => some { st with wk := .waiting, pc := .startO }
  | .startO => some { st with rd := upd st.rd .out .running, pc := .startE }
  | .startE => some { st with rd := upd st.rd .err .running, pc := .wait }
  | .wait =>
    if fail then if c.sudo then some { st with pc := .cleanup } else none
    else match st.exited with
      | none => none
      | some _ =>
        -- `communicate` also waits for the end of both streams
        if c.sudo && !(st.closed .out && st.closed .err && st.pipe .out == [] && st.pipe .err == [])
        then none
        else some { st with pc := .joinO false }
  | .signalled =>
    if fail then some { st with pc := .cleanup }
    else some { st with log := st.log ++ [.interrupt],
                        pc := if c.raises st.log .interrupt then .cleanup else .wait }
  | .cleanup => if fail && st.spawned && !c.sudo then some { st with pc := .raised }
      else some { st with pc := .joinO true }
  | .joinO exn => match st.rd .out with
    | .running | .holding _ => none
    | _ => some { st with pc := .joinE exn }
  | .joinE exn => match st.rd .err with
    | .running | .holding _ => none
    | _ => some { st with pc := .putNone exn }
  | .putNone exn => if st.spawned then some { st with queue := st.queue ++ [none], pc := .joinW exn }
      else some { st with pc := .joinW exn }
  | .joinW exn => match st.wk with
    | .waiting | .holding _ _ => none
    | _ => some { st with pc := if exn then .raised else .after }
  | .after => match st.exited with
    | none => none
    | some rc => some { st with log := st.log ++ [endEv c.sudo rc],
                                pc := if c.raises st.log (endEv c.sudo rc) then .raised
                                      else .returned rc }
  | .returned _ => none
  | .raised => none

/-- One step; `none` when the action is not possible. `read`, `put`: `_read_stream`, extcmd 595-614;
`get`, `deliver`: `_drain_queue`, extcmd 616-626; `interrupt`: extcmd 520-525 and the `finally`
clauses; `steal`: `Popen.communicate`, ctrl 1547, reads both pipes and the result is dropped. -/
def step (c : Cfg) (a : Act) (st : St) : Option St :=
  match a with
  | .main fail => mainStep c fail st
  | .interrupt => match st.pc with
    | .wait => some { st with pc := .signalled }
    | .returned _ => none
    | .raised => none
    | pc => some { st with pc := abort c.sudo pc }
  | .read s => match st.rd s with
    | .running => match readData c.chunked (st.closed s) (st.pipe s) with
      | none => none
      | some d =>
        if d = [] then some { st with rd := upd st.rd s .finished }
        else some { st with rd := upd st.rd s (.holding d),
                            pipe := upd st.pipe s ((st.pipe s).drop d.length) }
    | _ => none
  | .put s => match st.rd s with
    | .holding d => some { st with rd := upd st.rd s .running, queue := st.queue ++ [some (s, d)] }
    | _ => none
  | .get => match st.wk, st.queue with
    | .waiting, none :: q => some { st with wk := .dead, queue := q }
    | .waiting, some (s, d) :: q => some { st with wk := .holding s d, queue := q }
    | _, _ => none
  | .deliver => match st.wk with
    | .holding s d => some { st with log := st.log ++ [dataEv c.chunked s d],
                                     wk := if c.raises st.log (dataEv c.chunked s d) then .dead
                                           else .waiting }
    | _ => none
  | .write s d => if st.spawned && !st.closed s then
      some { st with pipe := upd st.pipe s (st.pipe s ++ d), wrote := upd st.wrote s (st.wrote s ++ d) }
    else none
  | .close s => if st.spawned then some { st with closed := upd st.closed s true } else none
  | .exit rc => if st.spawned && st.exited.isNone then some { st with exited := some rc } else none
  | .steal s n => if c.sudo && decide (st.pc = .wait) then
      some { st with pipe := upd st.pipe s ((st.pipe s).drop n) }
    else none

/-- Before `call`. (extcmd 458-470) -/
def init : St :=
  { pc := .begin, rd := fun _ => .notStarted, wk := .notStarted, queue := [], spawned := false,
    pipe := fun _ => [], closed := fun _ => false, wrote := fun _ => [], exited := none, log := [] }

/-- A schedule. (No counterpart in the code.) -/
def run (c : Cfg) : List Act → St → Option St
  | [], st => some st
  | a :: as, st => (step c a st).bind (run c as)

/-! ## Delegates -/

/-- Delegates: something with a number that is told about events; `Chain([])` and
`Chain([a] + rest)` (extcmd 629-688); `Transform(callback, d)` (extcmd 752-798) where a callback that
gives `none` raises.  `SafeDelegate` only leaves out methods that the delegate does not have. -/
inductive Dlg
  | leaf (id : Nat)
  | nil
  | both (a b : Dlg)
  | transform (f : Stream → Bytes → Option Bytes) (d : Dlg)

/-- Who is told what, in order, when a delegate is told about an event, and whether an exception comes
out.  `raises` says which leaves raise. (extcmd 363-435, 629-688) -/
def tell (raises : Nat → Ev → Bool) : Dlg → Ev → List (Nat × Ev) × Bool
  | .leaf i, e => ([(i, e)], raises i e)
  | .nil, _ => ([], false)
  | .both a b, e =>
    if (tell raises a e).2 then tell raises a e
    else ((tell raises a e).1 ++ (tell raises b e).1, (tell raises b e).2)
  | .transform f d, e => match e with
    | .line s l => match f s l with
      | none => ([], true)
      | some l' => tell raises d (.line s l')
    | .chunk s l => match f s l with
      | none => ([], true)
      | some l' => tell raises d (.chunk s l')
    | .begin => tell raises d .begin
    | .ended rc => tell raises d (.ended rc)
    | .abnormal n => tell raises d (.abnormal n)
    -- `Transform` does not override `on_interrupt`: extcmd 357-360
    | .interrupt => ([], false)

/-- What one leaf was told, given what the delegate at the root was told. (No counterpart in the code.) -/
def seen (raises : Nat → Ev → Bool) (d : Dlg) (i : Nat) (log : List Ev) : List Ev :=
  log.flatMap fun e => ((tell raises d e).1.filter fun p => p.1 = i).map (·.2)

/-- The delegate of the runner (runner 847-848): the user interface, the delegate for output, the
generator of records, the writer of files. -/
def runnerDlg (ui io : Dlg) : Dlg := .both ui (.both io (.both (.leaf 2) (.both (.leaf 3) .nil)))

/-- `IOLogRecordGenerator` (runner 60-87): a record for each line (delays are left out); `on_chunk` is
the method of the base class that does nothing. -/
def records : List Ev → List (Stream × Bytes)
  | [] => []
  | .line s d :: l => (s, d) :: records l
  | _ :: l => records l

/-- `CommandOutputWriter` (runner 98-150): what ends up in the file for a stream. -/
def fileOf (s : Stream) : List Ev → Bytes
  | [] => []
  | .line t d :: l => (if t = s then d else []) ++ fileOf s l
  | _ :: l => fileOf s l

end Verif.Extcmd
