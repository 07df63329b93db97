import Verif.System.Model
/-
Words used to state what manager and workers do together.
-/
namespace Verif.System
open Verif

/-- The orders among messages. -/
def ords (l : List Worker.Msg) : List Worker.Order := l.filterMap fun m => match m.2 with | .work o => some o | _ => none

/-- The persistent stop. -/
abbrev pst : Worker.Msg := (Worker.PERSIS_STOP, .sig Worker.KILL)

/-- Does the running user function owe an answer: it has been started, or has taken an order, and has not sent anything since
(messages with `keep_state` do not count)? -/
def owes (env : Env) : List Worker.Ev → Bool
  | [] => false
  | .start _ _ :: _ => true
  | .utook (_, .work _) :: _ => true
  | .out (.data x) :: tr => (env.msg x).keepState && owes env tr
  | .out (.answer ..) :: _ | .out .err :: _ | .stop :: _ => false
  | _ :: tr => owes env tr

/-- Has the running user function been started, or been given an order, in active-receive mode? -/
def arMode : List Worker.Ev → Bool
  | [] => false
  | .start o _ :: _ => o.activeRecv
  | .utook (_, .work o) :: tr => o.activeRecv || arMode tr
  | _ :: tr => arMode tr

/-- Has the running user function received the persistent stop? -/
def told (tr : List Worker.Ev) : Bool := decide (pst ∈ Worker.heard tr)

/-- How user functions are expected to behave.  Only persistent functions send messages; these do not claim to be the last one,
and (unless with `keep_state` or in active-receive mode) they answer an order.  A persistent function returns with a status that
says so, when it owes an answer or after the persistent stop (in active-receive mode: after the persistent stop).  No
function returns the finish signal as its status. -/
def Disciplined (env : Env) (tr : List Worker.Ev) : Prop :=
  Worker.OnEv (fun e pre => match e with
    | .out (.data x) => inPersis pre = true ∧ (env.msg x).isFinished = false ∧
        ((env.msg x).keepState = false → owes env pre = true ∨ arMode pre = true)
    | .out (.answer o s _) => o.persistent = true → (s = 11 ∨ s = 12) ∧ (told pre = true ∨ (owes env pre = true ∧ arMode pre = false))
    | .ret u => u ≠ .pairStatus Worker.FINISH ∧ u ≠ .triple Worker.FINISH
    | _ => True) tr

/-- Does the message answer an order (anything but data with `keep_state`)? -/
def isAnswer (env : Env) : Worker.Out → Bool
  | .data x => !(env.msg x).keepState
  | _ => true

/-- Is the worker in a call of a user function that has to be answered: the function is not persistent, or owes an answer, or
is to be ended by the persistent stop (in active-receive mode, or the stop has been sent)? -/
def inCall (env : Env) (s : Worker.W) : Bool :=
  match s.ph with
  | .needRows _ => true
  | .user o .. | .userRows o .. => !o.persistent || owes env s.tr || arMode s.tr || told s.tr || decide (pst ∈ Worker.left s.chan)
  | _ => false

/-- An order sent to the worker has not been answered: it is in the channel, being worked on, or the answer is on the
way. -/
def Unanswered (env : Env) (w : Nat) (tr : List Manager.Ev) (s : Worker.W) : Prop :=
  ords (Worker.left s.chan) ≠ [] ∨ inCall env s = true ∨ ∃ x ∈ onTheWay w tr s, isAnswer env x.2 = true

/-- The worker runs a persistent function, or will when it takes its next order, or the end of one is on the way. -/
def Persistent (w : Nat) (tr : List Manager.Ev) (s : Worker.W) : Prop :=
  match s.ph with
  | .needRows o | .user o _ _ | .userRows o _ _ _ _ => o.persistent = true
  | .idle => (∃ o rest, ords (Worker.left s.chan) = o :: rest ∧ o.persistent = true) ∨
      ∃ x ∈ onTheWay w tr s, ∃ o st r, x.2 = .answer o st r ∧ o.persistent = true
  | _ => False

/-- The messages of worker `w` itself that the manager has received, in order of time. -/
def msgsFrom (w : Nat) : List Manager.Ev → List Manager.Msg
  | [] => []
  | .recv v m :: tr => if v = w ∧ fromWorker m = true then msgsFrom w tr ++ [m] else msgsFrom w tr
  | _ :: tr => msgsFrom w tr

end Verif.System
