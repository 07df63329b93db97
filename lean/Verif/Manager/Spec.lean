import Verif.Manager.Model
/-
What the theorems about the manager talk about: functions of the record of a run (`St.tr`, newest first), i.e. of
what was sent to and received from the workers.  Nothing here refers to the manager's own tables.
-/
namespace Verif.Manager
open Verif.History Verif.Alloc

/-- Has the main loop ended? -/
def hasFinal (tr : List Ev) : Bool := tr.any fun | .final => true | _ => false
/-- Has a worker exception been reported? -/
def hasExc (tr : List Ev) : Bool := tr.any fun | .exc => true | _ => false

/-- Does the message say that a persistent function has ended? -/
def Data.isFinished (d : Data) : Bool :=
  decide (d.calcStatus = FINISHED_PERSISTENT_SIM) || decide (d.calcStatus = FINISHED_PERSISTENT_GEN)

/-- A simulation result that is neither empty nor an array. -/
def Data.broken (d : Data) : Bool := decide (d.calcType = EVAL_SIM) && (match d.out with | .other => true | _ => false)

/-- Does the message report a failure of the worker: its exception, or a broken simulation result? -/
def Msg.failure : Msg → Bool
  | .err => true
  | .data d => !d.isFinished && d.broken
  | _ => false

/-- Number of worker exceptions raised by the manager. -/
def excCount (tr : List Ev) : Nat := tr.countP fun | .exc => true | _ => false

/-- What is known about a worker from the messages exchanged with it.
`busy`: it has an order that it has not answered; `recv`: it is in active-receive mode; `stopped`: it has been sent
a persistent stop and has not finished since; `persis`: 1 / 2 if it runs a persistent simulator / generator. -/
structure View where
  busy : Bool := false
  recv : Bool := false
  stopped : Bool := false
  persis : Nat := 0
deriving DecidableEq, Repr

/-- Effect of one event on what is known about worker `w`.  An ordinary order is answered by the next result that
is not marked as intermediate (`keep_state`); an order in active-receive mode and a persistent stop are answered when
the persistent function ends; after a worker exception any result counts as the answer.  A broken result is itself a
worker exception: nothing else in it is looked at.  Orders after the end of the main loop are persistent stops. -/
def View.step (w : Nat) (fin exc : Bool) (e : Ev) (v : View) : View :=
  match e with
  | .order to _ wk =>
    if to = w then
      if fin then { v with busy := true, stopped := true }
      else { v with busy := true
                    recv := v.recv || (wk.persistent && wk.activeRecv.getD false)
                    persis := if wk.persistent then wk.tag else v.persis }
    else v
  | .persisStop to => if to = w then { v with busy := true, stopped := true } else v
  | .recv w' m =>
    if w' = w then
      match m with
      | .finished => v
      | .log => v
      | .err => { v with busy := false }
      | .data d =>
        if d.isFinished then
          { busy := v.busy && !(exc || v.recv || v.stopped || !d.keepState), recv := false, stopped := false, persis := 0 }
        else
          { v with busy := v.busy && !(exc || (!v.recv && !v.stopped && !d.keepState))
                   persis := if d.persistent && (exc || !d.broken) then d.calcType else v.persis }
    else v
  | _ => v

/-- What is known about worker `w` after the events `tr`. -/
def view (w : Nat) : List Ev → View
  | [] => {}
  | e :: tr => (view w tr).step w (hasFinal tr) (hasExc tr) e

/-- Is the event a persistent stop sent to worker `w`: the signal, or a last order with the rows not yet returned? -/
def isPersisStop (w : Nat) : Ev → Bool
  | .persisStop to => decide (to = w)
  | .order to _ wk => decide (to = w) && decide (wk.tag = PERSIS_STOP)
  | _ => false

/-- The array in a message. -/
def Out.array : Out → Option Rec
  | .arr r => Option.some r
  | _ => Option.none

/-- Does the message carry the result of a simulation? -/
def Data.isSim (d : Data) : Bool :=
  decide (d.calcStatus = FINISHED_PERSISTENT_SIM) || (!d.isFinished && decide (d.calcType = EVAL_SIM))

/-- Does the message carry the result of a generator? -/
def Data.isGen (d : Data) : Bool :=
  decide (d.calcStatus = FINISHED_PERSISTENT_GEN) || (!d.isFinished && decide (d.calcType = EVAL_GEN))

/-- Is the update `o` of the history the recording of the contents of message `m` of worker `w`? -/
def Records (w : Nat) (m : Msg) (o : Op) : Prop :=
  match m, o with
  | .data d, .simReturn rows r _ _ => d.isSim = true ∧ rows = d.rows ∧ r = d.out.array
  | .data d, .genReturn w' r _ _ => d.isGen = true ∧ w' = w ∧ some r = d.out.array
  | _, _ => False

/-- Updates of the history that record results. -/
def isResult : Op → Bool
  | .simReturn _ _ _ _ | .genReturn _ _ _ _ => true
  | _ => false

/-- Does the message carry results that have to be recorded?  Simulation results that are empty or an array, arrays of
generators; data of a finished persistent function only if the specifications ask for it. -/
def Msg.results (sp : Specs) : Msg → Bool
  | .data d =>
    if d.calcStatus = FINISHED_PERSISTENT_GEN then sp.retGen && d.out.array.isSome
    else if d.calcStatus = FINISHED_PERSISTENT_SIM then sp.retSim && d.out.array.isSome
    else (decide (d.calcType = EVAL_SIM) && !d.broken) || (decide (d.calcType = EVAL_GEN) && d.out.array.isSome)
  | _ => false

/-- Rows sent for evaluation by one event. -/
def simRowsOf : Ev → List Nat
  | .order _ _ wk => if wk.tag = EVAL_SIM then wk.rows else []
  | _ => []

/-- All rows sent for evaluation, newest first. -/
def simGiven (tr : List Ev) : List Nat := tr.flatMap simRowsOf

/-- Rows recorded as evaluated by one event. -/
def simBackOf : Ev → List Nat
  | .op (.simReturn rows _ _ _) => rows
  | _ => []

/-- All rows recorded as evaluated, newest first. -/
def simBack (tr : List Ev) : List Nat := tr.flatMap simBackOf

end Verif.Manager
