import Verif.Comms.Model
/-
The worker (libensemble/worker.py), the helper for persistent user functions (libensemble/tools/persistent_support.py) and
`Executor.manager_poll` (libensemble/executors/executor.py:544-571).

A worker runs in steps: one `tick` is one action of the worker program (receive a message, call the user function, one
action of the user function, …).  Between two ticks anything may arrive.  A tick in which a receive finds nothing leaves
everything as it is (the worker waits).

Simplifications: the contents of arrays are numbers without meaning; a calculation status is an integer (strings count as
integers that are no status); orders always have `libE_info` with `H_rows`; logging, statistics, directories, resources and
`persis_info` are left out; exceptions of the clean-up in `run` are left out; user functions use the communicator only
through `PersistentSupport` and `manager_poll`.
-/
namespace Verif.Worker
open Verif.Comms

/-! message_numbers.py -/
abbrev EVAL_SIM : Nat := 1
abbrev EVAL_GEN : Nat := 2
abbrev STOP : Nat := 3
abbrev PERSIS_STOP : Nat := 4
abbrev FINISH : Int := 20
abbrev KILL : Int := 21

/-- `tag in [STOP_TAG, PERSIS_STOP]`. -/
def isStop (t : Nat) : Bool := t == STOP || t == PERSIS_STOP

/-- A work order as the worker sees it. -/
structure Order where
  tag : Nat
  rows : List Nat
  persistent : Bool := false
  activeRecv : Bool := false
deriving DecidableEq, Repr

/-- The second part of a message: a work order (dict), a signal (int) or an array. -/
inductive Body
  | work (o : Order)
  | sig (n : Int)
  | data (x : Nat)
deriving DecidableEq, Repr

abbrev Msg := Nat × Body

/-- What a user function returns (worker.py:293-304): nothing, an array, a tuple with fewer than two entries, array and
`persis_info`, array and status, array, `persis_info` and status, something
that cannot be taken apart (four or more entries, no length). -/
inductive UOut
  | none
  | array (len : Nat)
  | short
  | pairInfo
  | pairStatus (s : Int)
  | triple (s : Int)
  | long
deriving DecidableEq, Repr

/-- What a user function observes. -/
inductive Obs
  | sent
  | nothing                                     -- `recv(blocking=False)` without mail: None, None, None
  | signal (t : Nat) (b : Body)                 -- tag, signal, None
  | input (t : Nat) (o : Order) (rows : Body)   -- tag, Work, calc_in
  | error                                       -- an exception in `PersistentSupport.recv`
  | poll (b : Option Body)                      -- result of `manager_poll`
deriving DecidableEq, Repr

/-- What a user function does next. -/
inductive UAct
  | send (x : Nat)
  | recv (blocking : Bool)
  | poll
  | ret (u : UOut)
  | raise
deriving DecidableEq, Repr

/-- The user functions: number of the call, order, input array, observations so far (newest first). -/
abbrev UserF := Nat → Order → Option Body → List Obs → UAct

/-- What the worker sends to the manager: a message of a persistent function (persistent_support.py:54-60), the answer to
an order (worker.py:376-382, 421; `row`: the output is a row instead of an array), an error report (worker.py:424). -/
inductive Out
  | data (x : Nat)
  | answer (o : Order) (status : Int) (row : Bool)
  | err
deriving DecidableEq, Repr

/-- What happens. -/
inductive Ev
  | took (m : Msg)                              -- worker.py:398
  | tookRows (m : Msg)                          -- worker.py:340
  | start (o : Order) (rows : Option Body)      -- worker.py:273-281
  | utook (m : Msg)                             -- persistent_support.py:76
  | utookRows (m : Msg)                         -- persistent_support.py:91
  | ptook (m : Msg)                             -- executor.py:558
  | uback (m : Msg)                             -- persistent_support.py:80, 98, executor.py:570
  | ret (u : UOut)
  | buffered (m : Msg)                          -- worker.py:288
  | raise                                       -- an exception reaches `run`
  | out (x : Out)
  | stop                                        -- the main loop is left
deriving DecidableEq, Repr

/-- Where the worker is. -/
inductive Ph
  | idle                                                       -- worker.py:398
  | skipRows (o : Order)                                       -- worker.py:414
  | needRows (o : Order)                                       -- worker.py:352
  | user (o : Order) (rows : Option Body) (h : List Obs)       -- in the user function
  | userRows (o : Order) (rows : Option Body) (h : List Obs) (t : Nat) (o' : Order)   -- persistent_support.py:91
  | ended | failed
deriving DecidableEq, Repr

structure W where
  ph : Ph := .idle
  chan : Chan Msg
  n : Nat := 0                                  -- number of calls
  tr : List Ev := []                            -- newest first
deriving DecidableEq, Repr

def W.log (w : W) (e : Ev) : W := { w with tr := e :: w.tr }

/-- An exception in `run` (worker.py:423-424). -/
def W.fail (w : W) : W := { w with ph := .failed, tr := .out .err :: .raise :: w.tr }

/-- The user function is called (worker.py:262-281) if the calculation type is known (worker.py:342-346). -/
def W.call (w : W) (o : Order) (rows : Option Body) : W :=
  if o.tag = EVAL_SIM ∨ o.tag = EVAL_GEN then { w with ph := .user o rows [], tr := .start o rows :: w.tr } else w.fail

/-- A message in the main loop (worker.py:400-420). -/
def W.handle (w : W) (m : Msg) : W :=
  let w := w.log (.took m)
  if isStop m.1 ∧ m.2 = .sig FINISH then { w with ph := .ended, tr := .stop :: w.tr }
  else if isStop m.1 ∧ m.2 = .sig KILL then w
  else
    match m.2 with
    | .work o =>
      if o.activeRecv ∧ o.persistent = false then
        if o.rows = [] then w else { w with ph := .skipRows o }
      else if o.rows = [] then w.call o none else { w with ph := .needRows o }
    | _ => w.fail

/-- Status and form of the output (worker.py:292-304, 362); `s`: status from the pushed-back message.  `none`: the
tuple cannot be unpacked. -/
def UOut.status (u : UOut) (s : Int) : Option (Int × Bool) :=
  match u with
  | .none | .short | .pairInfo => some (s, false)
  | .array len => some (s, len == 2)
  | .pairStatus x | .triple x => some (x, false)
  | .long => Option.none

/-- After the user function (worker.py:285-304, 362-382, 419-421). -/
def W.finish (w : W) (o : Order) (u : UOut) : W :=
  let w := w.log (.ret u)
  let r := match w.chan.buf with
    | some m => ({ w with chan := w.chan.recv.1, tr := .buffered m :: w.tr }, if isStop m.1 ∧ m.2 = Body.sig FINISH then FINISH else 0)
    | none => (w, (0 : Int))
  match u.status r.2 with
  | Option.none => r.1.fail
  | some (s, row) =>
    if s = FINISH then { r.1 with ph := .ended, tr := .stop :: r.1.tr }
    else { r.1 with ph := .idle, n := r.1.n + 1, tr := .out (.answer o s row) :: r.1.tr }

/-- Push back and go on (persistent_support.py:80, 98, executor.py:570); an exception of `push_to_buffer` is one of the
user function. -/
def W.pushBack (w : W) (m : Msg) (o : Order) (rows : Option Body) (h : List Obs) (x : Obs) : W :=
  match w.chan.push m with
  | some c => { w with chan := c, ph := .user o rows (x :: h), tr := .uback m :: w.tr }
  | none => { w with ph := .user o rows (.error :: h) }

/-- One step of the worker. -/
def tick (F : UserF) (w : W) : W :=
  match w.ph with
  | .ended | .failed => w
  | .idle =>
    match w.chan.recv with
    | (_, none) => w
    | (c, some m) => ({ w with chan := c } : W).handle m
  | .skipRows o =>
    match w.chan.recv with
    | (_, none) => w
    | (c, some m) =>
      let w := ({ w with chan := c } : W).log (.tookRows m)
      if o.tag = EVAL_SIM ∨ o.tag = EVAL_GEN then { w with ph := .idle } else w.fail
  | .needRows o =>
    match w.chan.recv with
    | (_, none) => w
    | (c, some m) => (({ w with chan := c } : W).log (.tookRows m)).call o (some m.2)
  | .user o rows h =>
    match F w.n o rows h with
    | .send x => { w with ph := .user o rows (.sent :: h), tr := .out (.data x) :: w.tr }
    | .raise => w.fail
    | .ret u => w.finish o u
    | .poll =>
      if w.chan.mailFlag = false then { w with ph := .user o rows (.poll none :: h) }
      else match w.chan.recv with
        | (_, none) => w
        | (c, some m) =>
          let w := ({ w with chan := c } : W).log (.ptook m)
          if m.1 ≠ STOP then { w with ph := .user o rows (.poll none :: h) }
          else w.pushBack m o rows h (.poll (some m.2))
    | .recv blocking =>
      if blocking = false ∧ w.chan.mailFlag = false then { w with ph := .user o rows (.nothing :: h) }
      else match w.chan.recv with
        | (_, none) => w
        | (c, some m) =>
          let w := ({ w with chan := c } : W).log (.utook m)
          match m.2 with
          | .work o' => { w with ph := .userRows o rows h m.1 o' }
          | b => if isStop m.1 then w.pushBack m o rows h (.signal m.1 b) else { w with ph := .user o rows (.error :: h) }
  | .userRows o rows h t o' =>
    match w.chan.recv with
    | (_, none) => w
    | (c, some m) =>
      let w := ({ w with chan := c } : W).log (.utookRows m)
      if isStop m.1 then w.pushBack m o rows h (.signal m.1 m.2)
      else { w with ph := .user o rows (.input t o' m.2 :: h) }

/-- What can happen: the manager sends, the system carries a message, the worker makes a step. -/
inductive Act
  | send (m : Msg) | carry | tick
deriving DecidableEq, Repr

def act (F : UserF) (w : W) : Act → W
  | .send m => { w with chan := w.chan.send m }
  | .carry => { w with chan := w.chan.carry }
  | .tick => tick F w

/-- A worker from its beginning. -/
def run (F : UserF) (k : Kind) (as : List Act) : W := as.foldl (act F) { chan := { kind := k } }

/-- Messages sent to the worker. -/
def sends : List Act → List Msg
  | [] => []
  | .send m :: as => m :: sends as
  | _ :: as => sends as

end Verif.Worker
