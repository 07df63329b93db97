import Verif.Aposmm.ClassProps

/-
Model of `LibensembleGenThreadRunner` (`libensemble/utils/runners.py:210-245`, with what it inherits, 161-178), which runs the class `APOSMM` in a
worker: it moves messages between the manager and the generator's own process.

Conventions
* A message of the manager is what `PersistentSupport.recv` makes of it (persistent_support.py:61-98): an order with results, or a stop with or
  without results.  Messages to the generator are modelled as they are put in its queue (`Raw`), and what the generator's own `PersistentSupport.recv` makes of them (`reads`).
* Results have the field `sim_id`, made from `_id` by `map_numpy_array` (generators.py:72).  Conversions of the other fields are C46.
* Steps of the generator (any messages), of the manager (any messages) and of the runner come in any order.
* Simplifications: the generator ends only when told to stop; a worker's `suggest_numpy` that has to wait takes no step; after the end of the
  generator `finalize` has no effect (its message is not read, `result` returns what it returned before, comms.py:193-207), nor has the answer of the runner: it is a tuple, which
  the manager does not use (manager.py:491-499).
-/
namespace Verif.Aposmm

variable {β : Type}

/-- A message of the manager. -/
inductive MMsg (β : Type)
  | work (rs : List (Nat × β))
  | stop (rs : Option (List (Nat × β)))
deriving DecidableEq, Repr

/-- A message to the manager: points, or minima (with `keep_state`). -/
inductive TSend
  | points (l : List Sug)
  | update (l : List Sug)
deriving DecidableEq, Repr

/-- What is in a message to the generator: the description of the rows, the rows, or `None`. -/
inductive Load (β : Type)
  | order
  | rows (b : List (Nat × Option β))
  | nothing
deriving DecidableEq, Repr

/-- A message to the generator; `stop`: its tag is `PERSIS_STOP`. -/
structure Raw (β : Type) where
  stop : Bool
  load : Load β
deriving DecidableEq, Repr

/-- Where the runner is: before `H0` is ingested, before the first points, waiting for the first answer, at the inner loop over the outbox of the
generator, at the loop over the mail, waiting for the end of the generator, at its end, at an exception (`none`: AttributeError). -/
inductive TPt
  | start | ask | waitFirst | drain | check | stopping | done
  | raised (e : Option ClsErr)
deriving DecidableEq, Repr

/-- The state: the class with the generator's messages not yet received (`cls.inbox`), the waiting messages of the manager, and records: messages sent
to the manager, received from it, put in the queue of the generator; all messages the generator and the manager have sent. -/
structure TSt (β : Type) where
  cls : Cls β
  h0 : List (Nat × β) := []
  pt : TPt := .start
  mail : List (MMsg β) := []
  sent : List TSend := []
  got : List (MMsg β) := []
  raw : List (Raw β) := []
  emitted : List (List Sug) := []
  arrived : List (MMsg β) := []

/-- `PersistentGenInterfacer.ingest_numpy` (generators.py:200-206): both messages have the given tag. -/
def loads (stop : Bool) (bs : List (List (Nat × Option β))) : List (Raw β) := bs.flatMap fun b => [⟨stop, .order⟩, ⟨stop, .rows b⟩]

/-- `self.gen.ingest_numpy(results, tag)`; what the class passes on is put in the queue of the generator. -/
def TSt.tell (s : TSt β) (stop : Bool) (rs : List (Nat × β)) (next : TPt) : TSt β :=
  match s.cls.ingest .simId rs with
  | .error e => { s with pt := .raised (some e) }
  | .ok c => { s with cls := c, raw := s.raw ++ loads stop (c.out.drop s.cls.out.length), pt := next }

/-- `_get_initial_suggest` and the sending (runners.py:211-213, 169-175); `none`: it waits for the generator. -/
def TSt.first (s : TSt β) : Option (TSt β) :=
  match s.cls.suggest 0 with
  | .error .blocked => none
  | .error e => some { s with pt := .raised (some e) }
  | .ok (l, c) => some { s with cls := c, sent := s.sent ++ [.points l], pt := .waitFirst }

/-- The first answer: `send_recv` and `_convert_initial_ingest`; its tag is not looked at (runners.py:156-159, 175, 215-216, 233).  A stop without results is
`None`, which the class does not accept (aposmm.py:360; if it has got its initial sample, the generator raises, which ends the runner as well). -/
def TSt.firstAnswer (s : TSt β) : Option (TSt β) :=
  match s.mail with
  | [] => none
  | m :: ms =>
    let s := { s with mail := ms, got := s.got ++ [m] }
    match m with
    | .work rs | .stop (some rs) => some (s.tell false rs .drain)
    | .stop none => some { s with pt := .raised none }

/-- One pass of the loop in `_suggest_and_send` (runners.py:218-231). -/
def TSt.drainOnce (s : TSt β) : TSt β :=
  if s.cls.inbox.isEmpty then { s with pt := .check }
  else match s.cls.suggest 0 with
    | .error e => { s with pt := .raised (some e) }
    | .ok (l, c) => { s with cls := c.takeUpdates, sent := s.sent ++ .points l :: c.minima.map .update }

/-- One pass of the loop over the mail (runners.py:238-245). -/
def TSt.checkOnce (s : TSt β) : TSt β :=
  match s.mail with
  | [] => { s with pt := .drain }
  | m :: ms =>
    let s := { s with mail := ms, got := s.got ++ [m] }
    match m with
    | .work rs => s.tell false rs .check
    | .stop (some rs) => s.tell true rs .stopping
    | .stop none => { s with raw := s.raw ++ [⟨true, .nothing⟩], pt := .stopping }

/-- The next step of the runner. -/
def TSt.step (s : TSt β) : Option (TSt β) :=
  match s.pt with
  | .start => some (if s.h0.isEmpty then { s with pt := .ask } else s.tell false s.h0 .ask)
  | .ask => s.first
  | .waitFirst => s.firstAnswer
  | .drain => some s.drainOnce
  | .check => some s.checkOnce
  | .stopping | .done | .raised _ => none

/-- All executions, for rows `h0` at the start and `initial_sample_size` `n`. -/
inductive TReach (h0 : List (Nat × β)) (n : Nat) : TSt β → Prop
  | init : TReach h0 n { cls := { size := n }, h0 := h0 }
  | gen {s : TSt β} (m : List Sug) : TReach h0 n s → TReach h0 n { s with cls := { s.cls with inbox := s.cls.inbox ++ [m] }, emitted := s.emitted ++ [m] }
  | mgr {s : TSt β} (m : MMsg β) : TReach h0 n s → TReach h0 n { s with mail := s.mail ++ [m], arrived := s.arrived ++ [m] }
  | run {s s' : TSt β} : TReach h0 n s → s.step = some s' → TReach h0 n s'
  | ends {s : TSt β} : TReach h0 n s → s.pt = .stopping → s.raw.any (·.stop) = true → TReach h0 n { s with pt := .done }

/-- What the generator's `PersistentSupport.recv` returns: results, or a stop. -/
inductive Got (β : Type)
  | batch (b : List (Nat × Option β))
  | stop (b : Option (List (Nat × Option β)))
  | error
deriving DecidableEq, Repr

/-- The successive results of `PersistentSupport.recv` in the generator (persistent_support.py:76-98), which ends at a stop. -/
def reads : List (Raw β) → List (Got β)
  | [] => []
  | ⟨true, .nothing⟩ :: _ => [.stop none]
  | ⟨false, .nothing⟩ :: _ => [.error]
  | ⟨_, .rows _⟩ :: _ => [.error]
  | [⟨_, .order⟩] => []
  | ⟨_, .order⟩ :: ⟨true, _⟩ :: _ => [.stop none]
  | ⟨st, .order⟩ :: ⟨false, .rows b⟩ :: rest => if st then [.stop (some b)] else .batch b :: reads rest
  | ⟨_, .order⟩ :: ⟨false, _⟩ :: _ => [.error]

end Verif.Aposmm
