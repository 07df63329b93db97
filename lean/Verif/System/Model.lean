import Verif.Manager.PropsTotals
import Verif.Worker.Props
/-
Manager and workers together: the record of the manager (`Verif.Manager`), one worker program per worker
(`Verif.Worker`) and the channels between them.

* What the manager sends to a worker (comms.py:119-123) is put at the end of the channel of that worker, where
  the worker model takes it from.
* What a worker has sent and the manager has not received yet are the outputs in the record of the worker beyond the number
  of messages that the manager has received from it; the manager receives them in this order.
* Log records and the end-of-channel exception (`Msg.log`, `Msg.finished`) may come at any time.
* Manager, workers and channels take their steps in any order.

Not modelled: `kill_pending` of a worker that ends (mpi.py:51-56).
-/
namespace Verif.System
open Verif

/-- The order as a worker sees it. -/
def orderOf (wk : Alloc.Work) : Worker.Order :=
  { tag := wk.tag, rows := wk.rows, persistent := wk.persistent, activeRecv := wk.activeRecv.getD false }

/-- What an event of the manager puts into the channel to worker `w` (manager.py:309, 428, 442, 582, 611).  The contents of
the rows do not matter to the worker. -/
def msgTo (w : Nat) : Manager.Ev → Option Worker.Msg
  | .order to _ wk => if to = w then some (wk.tag, .work (orderOf wk)) else none
  | .rows to _ _ => if to = w then some (0, .data 0) else none
  | .stop to => if to = w then some (Worker.STOP, .sig Worker.FINISH) else none
  | .kill to _ => if to = w then some (Worker.STOP, .sig Worker.KILL) else none
  | .persisStop to => if to = w then some (Worker.PERSIS_STOP, .sig Worker.KILL) else none
  | _ => none

/-- `libE_info["H_rows"]` on a worker: the rows of the order being worked on (worker.py:379; persistent_support.py:89
overwrites them with those of the newest order). -/
def hRows : List Worker.Ev → List Nat
  | [] => []
  | .start o _ :: _ => o.rows
  | .utook (_, .work o) :: _ => o.rows
  | _ :: tr => hRows tr

/-- Is `libE_info["persistent"]` set in the call that is going on? -/
def inPersis (tr : List Worker.Ev) : Bool := match Worker.running tr with | some (o, _) => o.persistent | none => false

/-- The users' side: user function and kind of communicator of each worker, contents of the messages that user
functions send. -/
structure Env where
  F : Nat → Worker.UserF
  kind : Nat → Comms.Kind
  msg : Nat → Manager.Data

/-- The message that arrives for an output of a worker; `pre` is the record of the worker before it.  A message of a
user function has the rows and the `persistent` entry of `libE_info` (persistent_support.py:44-60); an answer also has the
calculation type of the order (worker.py:376-382), and any output; `keep_state` is set in copies of `libE_info` only. -/
def Says (env : Env) (pre : List Worker.Ev) : Worker.Out → Manager.Msg → Prop
  | .data x, .data d => d = { env.msg x with rows := hRows pre, persistent := inPersis pre } ∧
      (d.calcType = Alloc.EVAL_SIM ∨ d.calcType = Alloc.EVAL_GEN)
  | .answer o s _, .data d => ∃ out, d = { calcType := o.tag, calcStatus := s.toNat, rows := hRows pre, persistent := o.persistent, out := out }
  | .err, .err => True
  | _, _ => False

/-- Outputs of a worker with the record before each of them, in order of time. -/
def outs : List Worker.Ev → List (List Worker.Ev × Worker.Out)
  | [] => []
  | .out x :: tr => outs tr ++ [(tr, x)]
  | _ :: tr => outs tr

/-- Is it a message of the worker itself? -/
def fromWorker : Manager.Msg → Bool
  | .data _ | .err => true
  | _ => false

/-- Is it the receipt of a message of worker `w`? -/
def isGot (w : Nat) : Manager.Ev → Bool
  | .recv w' m => decide (w' = w) && fromWorker m
  | _ => false

/-- Number of messages received from worker `w`. -/
def got (w : Nat) (tr : List Manager.Ev) : Nat := tr.countP (isGot w)

/-- What worker `w` has sent and the manager has not received. -/
def onTheWay (w : Nat) (tr : List Manager.Ev) (s : Worker.W) : List (List Worker.Ev × Worker.Out) := (outs s.tr).drop (got w tr)

/-- Can the event come next?  Only messages that are on the way can be received, in the order in which they were
sent. -/
def Possible (env : Env) (tr : List Manager.Ev) (ws : Nat → Worker.W) : Manager.Ev → Prop
  | .recv w m => fromWorker m = true → ∃ pre x rest, onTheWay w tr (ws w) = (pre, x) :: rest ∧ Says env pre x m
  | _ => True

/-- The worker after an event of the manager. -/
def deliver (w : Nat) (e : Manager.Ev) (s : Worker.W) : Worker.W :=
  match msgTo w e with
  | some m => { s with chan := s.chan.send m }
  | none => s

/-- All that can happen: record of the manager, states of the workers. -/
inductive Joint (env : Env) : List Manager.Ev → (Nat → Worker.W) → Prop
  | init : Joint env [] (fun w => { chan := { kind := env.kind w } })
  | man {tr : List Manager.Ev} {ws : Nat → Worker.W} (e : Manager.Ev) : Joint env tr ws → Possible env tr ws e →
      Joint env (e :: tr) (fun w => deliver w e (ws w))
  | carry {tr : List Manager.Ev} {ws : Nat → Worker.W} (w : Nat) : Joint env tr ws →
      Joint env tr (fun v => if v = w then { ws v with chan := (ws v).chan.carry } else ws v)
  | tick {tr : List Manager.Ev} {ws : Nat → Worker.W} (w : Nat) : Joint env tr ws →
      Joint env tr (fun v => if v = w then Worker.tick (env.F v) (ws v) else ws v)

/-- Messages sent to worker `w`, in order of time. -/
def sentTo (w : Nat) : List Manager.Ev → List Worker.Msg
  | [] => []
  | e :: tr => sentTo w tr ++ (msgTo w e).toList

end Verif.System
