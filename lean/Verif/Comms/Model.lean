/-
Communicators (libensemble/comms/comms.py, libensemble/comms/mpi.py): one direction of a connection, seen from the end that
receives.  The two directions of a connection have nothing in common (comms.py:107-110: `_inbox` and `_outbox` are
separate queues).

Not modelled: time (a receive that finds nothing is a `Timeout`, or waits), copying of messages, MPI tags, the contents of
messages.  Assumed of queues and of MPI: what has been put into a queue or sent from one rank to another is taken out in
the order in which it was put in (`queue.Queue`, `multiprocessing.Queue`, MPI's non-overtaking rule).
-/
namespace Verif.Comms

/-- `QComm` (comms.py:99-145) or `MPIComm` (mpi.py:14-100). -/
inductive Kind
  | queue | mpi
deriving DecidableEq, Repr

/-- One direction of a connection: sent but not yet under way (the buffer of a `multiprocessing.Queue`, the `_outbox` of
`MPIComm`), ready to be received, and the pushed-back message (`recv_buffer`). -/
structure Chan (α : Type) where
  kind : Kind
  pend : List α := []
  inbox : List α := []
  buf : Option α := none
deriving DecidableEq, Repr

variable {α : Type}

/-- comms.py:119-123, mpi.py:67-72. -/
def Chan.send (c : Chan α) (m : α) : Chan α := { c with pend := c.pend ++ [m] }

/-- The system carries one message to the other end. -/
def Chan.carry (c : Chan α) : Chan α :=
  match c.pend with
  | [] => c
  | m :: rest => { c with pend := rest, inbox := c.inbox ++ [m] }

/-- comms.py:125-136, mpi.py:74-85: the pushed-back message, otherwise the next one.  `none`: `Timeout` (or waiting). -/
def Chan.recv (c : Chan α) : Chan α × Option α :=
  match c.buf with
  | some m => ({ c with buf := none }, some m)
  | none =>
    match c.inbox with
    | [] => (c, none)
    | m :: rest => ({ c with inbox := rest }, some m)

/-- comms.py:139-140 (overwrites), mpi.py:95-97 (assertion).  `none`: AssertionError. -/
def Chan.push (c : Chan α) (m : α) : Option (Chan α) :=
  match c.kind, c.buf with
  | .mpi, some _ => none
  | _, _ => some { c with buf := some m }

/-- comms.py:142-144 (does not look at the pushed-back message), mpi.py:42-49. -/
def Chan.mailFlag (c : Chan α) : Bool :=
  match c.kind with
  | .queue => !c.inbox.isEmpty
  | .mpi => c.buf.isSome || !c.inbox.isEmpty

/-- Called by the sender (comms.py:95-96: nothing; mpi.py:51-56: what is not yet under way is cancelled). -/
def Chan.killPending (c : Chan α) : Chan α :=
  match c.kind with
  | .queue => c
  | .mpi => { c with pend := [] }

/-! ### Use of a communicator -/

/-- What sender, receiver and system do. -/
inductive Act (α : Type)
  | send (m : α) | carry | recv | push (m : α) | flag
deriving DecidableEq, Repr

/-- What has happened. -/
inductive Ev (α : Type)
  | sent (m : α)
  | got (m : α)                 -- a receive that returned `m`
  | nothing                     -- a receive that timed out
  | back (m : α)                -- a push-back
  | flag (b : Bool)
  | refused (m : α)             -- AssertionError in `push_to_buffer`
deriving DecidableEq, Repr

/-- One action. -/
def act (c : Chan α) : Act α → Chan α × List (Ev α)
  | .send m => (c.send m, [.sent m])
  | .carry => (c.carry, [])
  | .recv => match c.recv with
    | (c, some m) => (c, [.got m])
    | (c, none) => (c, [.nothing])
  | .push m => match c.push m with
    | some c => (c, [.back m])
    | none => (c, [.refused m])
  | .flag => (c, [.flag c.mailFlag])

/-- Any sequence of actions; the record is in order of time. -/
def acts (c : Chan α) : List (Act α) → Chan α × List (Ev α)
  | [] => (c, [])
  | a :: rest =>
    let r := act c a
    let r' := acts r.1 rest
    (r'.1, r.2 ++ r'.2)

/-! ### The creator's end of a thread or process (comms.py:148-220) -/

/-- Messages of the thread: ordinary ones, and the last one with result or exception (comms.py:223-233). -/
inductive TMsg (α : Type)
  | msg (m : α)
  | result (ok : Bool)
deriving DecidableEq, Repr

structure Local (α : Type) where
  inbox : List (TMsg α) := []
  done : Option Bool := none
deriving DecidableEq, Repr

inductive LRes (α : Type)
  | got (m : α) | finished | timeout
deriving DecidableEq, Repr

/-- comms.py:172-185. -/
def Local.recv (l : Local α) : Local α × LRes α :=
  match l.done with
  | some _ => (l, .finished)
  | none =>
    match l.inbox with
    | [] => (l, .timeout)
    | .msg m :: rest => ({ l with inbox := rest }, .got m)
    | .result ok :: rest => ({ inbox := rest, done := some ok }, .finished)

/-- comms.py:191-206 (waits; `none`: still running): all other messages are dropped. -/
def Local.result (l : Local α) : Local α × Option Bool :=
  match l.done with
  | some ok => (l, some ok)
  | none =>
    match l.inbox.dropWhile (fun m => match m with | .msg _ => true | .result _ => false) with
    | .result ok :: rest => ({ inbox := rest, done := some ok }, some ok)
    | rest => ({ l with inbox := rest }, none)

inductive LAct (α : Type)
  | arrive (m : TMsg α) | recv
deriving DecidableEq, Repr

/-- Any sequence of arrivals and receives: final state and results of the receives. -/
def Local.run (l : Local α) : List (LAct α) → Local α × List (LRes α)
  | [] => (l, [])
  | .arrive m :: rest => Local.run { l with inbox := l.inbox ++ [m] } rest
  | .recv :: rest =>
    let r := l.recv
    let r' := Local.run r.1 rest
    (r'.1, r.2 :: r'.2)

end Verif.Comms
