import Verif.Worker.Model
/- Words used to state what a worker does. -/
namespace Verif.Worker
open Verif.Comms

/-- Message that ends the worker. -/
def finishMsg (m : Msg) : Prop := isStop m.1 = true ∧ m.2 = .sig FINISH
instance (m : Msg) : Decidable (finishMsg m) := by unfold finishMsg; infer_instance
/-- Message that is ignored by an idle worker. -/
def killMsg (m : Msg) : Prop := isStop m.1 = true ∧ m.2 = .sig KILL
instance (m : Msg) : Decidable (killMsg m) := by unfold killMsg; infer_instance

/-- The calculation type is known. -/
def okTag (o : Order) : Prop := o.tag = EVAL_SIM ∨ o.tag = EVAL_GEN
/-- Order in active receive mode for a worker that is not persistent (any more): discarded. -/
def dropped (o : Order) : Prop := o.activeRecv = true ∧ o.persistent = false

/-- The call that is going on. -/
def running : List Ev → Option (Order × Option Body)
  | [] => none
  | .start o b :: _ => some (o, b)
  | .out (.answer ..) :: _ | .out .err :: _ | .stop :: _ => none
  | _ :: tr => running tr

/-- Messages taken and not put back, in order. -/
def taken : List Ev → List Msg
  | [] => []
  | .took m :: tr | .tookRows m :: tr | .utook m :: tr | .utookRows m :: tr | .ptook m :: tr | .buffered m :: tr => taken tr ++ [m]
  | .uback _ :: tr => (taken tr).dropLast
  | _ :: tr => taken tr

/-- Messages received by the user function since it was called, newest first. -/
def heard : List Ev → List Msg
  | [] => []
  | .start .. :: _ => []
  | .utook m :: tr | .utookRows m :: tr | .ptook m :: tr => m :: heard tr
  | _ :: tr => heard tr

/-- The finish signal as the manager sends it. -/
abbrev fin : Msg := (STOP, .sig FINISH)

/-- The user function returned a status of its own. -/
def UOut.own : UOut → Option Int
  | .pairStatus s | .triple s => some s
  | _ => Option.none

/-- What comes next in a stream of messages. -/
inductive Want
  | ctl | rows
deriving DecidableEq, Repr

/-- How the manager writes to a worker: signals with a stop tag, orders, and directly after an order with rows these rows
(manager.py:309, 428-442, 582, 603-612). -/
def frame : Want → List Msg → Option Want
  | s, [] => some s
  | .ctl, (t, .sig _) :: ms => if isStop t = true then frame .ctl ms else none
  | .ctl, (t, .work o) :: ms => if t = STOP then none else if o.rows = [] then frame .ctl ms else frame .rows ms
  | .rows, (t, .data _) :: ms => if isStop t = true then none else frame .ctl ms
  | _, _ => none

/-- A stream (possibly cut off) of that form. -/
def Framed (ms : List Msg) : Prop := frame .ctl ms ≠ none
instance (ms : List Msg) : Decidable (Framed ms) := by unfold Framed; infer_instance

/-- The user function receives orders with rows only and polls take stop messages only. -/
def Careful (tr : List Ev) : Prop :=
  (∀ m o, .utook m ∈ tr → m.2 = .work o → o.rows ≠ []) ∧ ∀ m, .ptook m ∈ tr → m.1 = STOP

end Verif.Worker
