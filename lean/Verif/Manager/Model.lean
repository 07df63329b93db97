import Verif.Alloc.Model
/-
Model of `libensemble/manager.py` (class `Manager`): worker table, hand-out of work, handling of worker
messages, kill signals, termination tests, checkpoints, main loop and shutdown.

Conventions
* Everything that the manager cannot control is an input: clock readings, the messages found in the
  channels (any worker, any order, any contents), the answers of the allocation function.
* Every function returns the state as it is when an exception leaves it, together with the exception, because
  `_final_receive_and_kill` goes on working with that state (`finally`, manager.py:730-735).
* `tr` is the list of what has happened so far, newest first: everything sent to a worker, every message
  taken from a channel, every update of the history array and of the resource table.  The code has no such list; no
  definition below reads it.
* Not modelled: log messages, live data, profiling, the entries of `persis_info` of single workers, the set-up of
  directories and of the additional worker thread (manager.py:170-190, 262-272, 311-315).
-/
namespace Verif.Manager
open Verif.History Verif.Res Verif.Sched Verif.Alloc

def FINISHED_PERSISTENT_SIM : Nat := 11
def FINISHED_PERSISTENT_GEN : Nat := 12
def MAN_SIGNAL_FINISH : Nat := 20
def MAN_SIGNAL_KILL : Nat := 21

/-- `calc_out` of a worker message: `None`, an array, or an object that has neither `dtype` nor `len`. -/
inductive Out
  | none
  | arr (r : Rec)
  | other

/-- A data message of a worker (built in worker.py `_handle` and tools/persistent_support.py `send`).  `persistent`
tells whether the key is in `libE_info`. -/
structure Data where
  calcType : Nat
  calcStatus : Nat
  rows : List Nat
  keepState : Bool := false
  persistent : Bool := false
  out : Out

/-- What `wcomms[w].recv()` gives (manager.py:540-560): the end-of-channel exception, a worker exception, a log
record, or data. -/
inductive Msg
  | finished
  | err
  | log
  | data (d : Data)

/-- Exceptions that can leave a `Manager` method. -/
inductive MErr
  | worker                      -- WorkerException
  | hist (e : HErr)
  | recvOrder                   -- AssertionError, manager.py:369-372
  | busy                        -- AssertionError, manager.py:375-377
  | noFields                    -- AssertionError, manager.py:382-385
  | badFields                   -- AssertionError, manager.py:389
  | recvNotPersistent           -- AssertionError, manager.py:453
  | emptyGen                    -- AssertionError, manager.py:525-527
  | noWork                      -- AssertionError, manager.py:721-723
  | alloc                       -- anything raised by alloc_f or by the checks of its output, manager.py:667-697
  | index
  | key
  | value
  | type
deriving DecidableEq, Repr

/-- What happened.  `order` is `wcomms[key].send(tag, Work)`; `to` is the worker at the other end.
The number of the row is not part of a kill signal; it is recorded for the statements about them. -/
inductive Ev
  | order (to key : Nat) (wk : Work)
  | rows (to : Nat) (idx : List Nat) (vals : List Row)     -- the array with the rows
  | stop (to : Nat)                                         -- (STOP_TAG, MAN_SIGNAL_FINISH)
  | kill (to row : Nat)                                     -- (STOP_TAG, MAN_SIGNAL_KILL), because of that row
  | persisStop (to : Nat)                                   -- (PERSIS_STOP, MAN_SIGNAL_KILL)
  | recv (w : Nat) (m : Msg)
  | op (o : Op)                                             -- a method of History
  | assign (key : Nat) (team : List Nat)
  | free (w : Nat)
  | test (r : Nat)                                          -- value of the loop condition's term_test
  | exc                                                     -- WorkerExc set
  | final                                                   -- the main loop has ended

/-- What does not change during a run.  `le` compares encoded objective values, `nan` tells which code is NaN. -/
structure Specs where
  gom : Bool := false                               -- gen_on_manager
  kill : Bool := false                              -- kill_canceled_sims
  wallclockMax : Option Int := none
  simMax : Option Nat := none
  genMax : Option Nat := none
  stopVal : Option (Field × Int) := none
  le : Int → Int → Bool := fun a b => decide (a ≤ b)
  nan : Int → Bool := fun _ => false
  finalGenSend : Bool := false
  retGen : Bool := false                            -- use_persis_return_gen
  retSim : Bool := false                            -- use_persis_return_sim
  generator : Bool := false                         -- gen_specs["generator"] is set
  indexList : List (Option Nat) := []               -- resource_manager.index_list
  kSims : Option Nat := none                        -- save_every_k_sims (0 counts as not given)
  kGens : Option Nat := none
  saveDone : Bool := false                          -- save_H_on_completion

/-- Attributes of a `Manager` object that change (manager.py:204-260). -/
structure St where
  hist : Hist
  W : List Wrk
  exc : Bool := false                               -- WorkerExc
  pending : List Nat := []                          -- persis_pending
  rm : Option RM := none                            -- self.resources.resource_manager
  pinfo : PInfo := {}
  persisIn : List Field := []                       -- gen_specs["persis_in"]
  simFiles : List (Nat × List Row) := []            -- files "…after_sim_<n>.npy" with their contents
  genFiles : List (Nat × List Row) := []
  tr : List Ev := []

abbrev R := St × Option MErr

/-- Sequencing: an exception skips the rest. -/
def andThen (r : R) (f : St → R) : R :=
  match r.2 with
  | some e => (r.1, some e)
  | none => f r.1

def emit (s : St) (e : Ev) : St := { s with tr := e :: s.tr }

/-- A call of a method of `History`. -/
def doOp (s : St) (o : Op) : R :=
  match apply s.hist o with
  | (h, e) => ({ s with hist := h, tr := .op o :: s.tr }, e.map .hist)

/-- The worker table row of worker `w` (`self.W[w]`). -/
def getW (sp : Specs) (s : St) (w : Nat) : Option Wrk := (wPos sp.gom s.W.length w).bind (s.W[·]?)

/-- Assignment to entries of `self.W[w]`. -/
def modW (sp : Specs) (s : St) (w : Nat) (f : Wrk → Wrk) : St :=
  match wPos sp.gom s.W.length w with
  | none => s
  | some k => { s with W := s.W.modify k f }

/-- The ids of the workers (`self.W["worker_id"]`). -/
def ids (s : St) : List Nat := s.W.map (·.id)

def anyActive (s : St) : Bool := s.W.any fun k => decide (k.active ≠ 0)
def anyPersis (s : St) : Bool := s.W.any fun k => decide (k.persis ≠ 0)

/-! ### Termination tests (manager.py:274-302) -/

/-- Values in a cell. -/
def cellVals : Val → List Int
  | .s x => [x]
  | .v xs => xs

/-- `term_test_stop_val` (manager.py:288-292), over the whole array `H`. -/
def stopValTest (sp : Specs) (h : Hist) (f : Field) (v : Int) : Bool :=
  (h.rows.filter (·.flag .simEnded)).any fun r => ((cellVals (r f)).filter fun x => !sp.nan x).any fun x => sp.le x v

/-- `term_test_wallclock` (manager.py:276-278) if `wallclock_max` is given; `elapsed` is the reading of the timer. -/
def wallTest (sp : Specs) (elapsed : Int) : Bool :=
  match sp.wallclockMax with | some m => decide (elapsed ≥ m) | none => false
/-- `term_test_sim_max` (manager.py:280-282) if `sim_max` is given. -/
def simTest (sp : Specs) (h : Hist) : Bool :=
  match sp.simMax with | some m => decide (h.simEndedCount ≥ m + h.simEndedOffset) | none => false
/-- `term_test_gen_max` (manager.py:284-286) if `gen_max` is given. -/
def genTest (sp : Specs) (h : Hist) : Bool :=
  match sp.genMax with | some m => decide (h.index ≥ m + h.genInformedOffset) | none => false
/-- `term_test_stop_val` if `stop_val` is given. -/
def valTest (sp : Specs) (h : Hist) : Bool :=
  match sp.stopVal with | some (f, v) => stopValTest sp h f v | none => false

/-- `term_test` (manager.py:294-302) with the list of tests (manager.py:227-232); `elapsed` is the reading of the timer. -/
def termTest (sp : Specs) (h : Hist) (elapsed : Int) : Nat :=
  if wallTest sp elapsed then 2
  else if simTest sp h then 1
  else if genTest sp h then 1
  else if valTest sp h then 1
  else 0

/-- `_sim_max_given` (manager.py:642-646). -/
def simMaxGiven (sp : Specs) (h : Hist) : Bool :=
  match sp.simMax with
  | some m => decide (h.simStartedCount ≥ m + h.simStartedOffset)
  | none => false

/-- `_kill_workers` (manager.py:306-309). -/
def killWorkers (s : St) : St := (ids s).foldl (fun s w => emit s (.stop w)) s

/-! ### Checkpoints (manager.py:326-361) -/

/-- `_save_every_k` (manager.py:326-336): the files of one kind after the call.  `files` are the files matching the
pattern; `k` is only read when `complete` is false. -/
def saveEveryK (files : List (Nat × List Row)) (H : List Row) (count k : Nat) (complete : Bool) : List (Nat × List Row) :=
  let c := if complete then count else k * (count / k)
  if (c ∉ files.map (·.1) ∧ c > 0) ∨ complete = true then [(c, H)] else files

/-- A setting that is given and not 0. -/
def given : Option Nat → Bool
  | some (_ + 1) => true
  | _ => false

/-- `_init_every_k_save` (manager.py:356-361). -/
def saveK (sp : Specs) (s : St) (complete : Bool) : St :=
  let force := complete && !given sp.kGens
  let s := if given sp.kSims || force then
      { s with simFiles := saveEveryK s.simFiles (trimH s.hist) s.hist.simEndedCount (sp.kSims.getD 0) complete }
    else s
  if given sp.kGens then
    { s with genFiles := saveEveryK s.genFiles (trimH s.hist) s.hist.index (sp.kGens.getD 0) complete }
  else s

/-! ### Outgoing work orders (manager.py:365-459) -/

/-- Rows of a work order: fields given and known (manager.py:378-389). -/
def checkFields (s : St) (wk : Work) : Option MErr :=
  if wk.rows.isEmpty then none
  else if wk.fields.isEmpty then some .noFields
  else if wk.fields.all (fun f => decide (f ∈ s.hist.cols.map (·.1))) then none
  else some .badFields

/-- `_check_work_order` (manager.py:365-389). -/
def checkOrder (sp : Specs) (s : St) (wk : Work) (w : Nat) (force : Bool) : Option MErr :=
  match getW sp s w with
  | none => some .index
  | some k =>
    if k.activeRecv then
      if wk.activeRecv.isNone then some .recvOrder else checkFields s wk
    else if !force && decide (k.active ≠ 0) then some .busy
    else checkFields s wk

/-- Python list index `l[w - 1]` (w = 0 reads the last entry). -/
def listAt {α} (l : List α) (w : Nat) : Option α := if w = 0 then l.getLast? else l[w - 1]?

/-- The team of an order (manager.py:397-404): the given one, else the default set of the worker. -/
def teamOf (sp : Specs) (wk : Work) (w : Nat) : Option (List Nat) :=
  match wk.team with
  | some t => some t
  | none => (listAt sp.indexList w).map Option.toList

/-- `_set_resources` (manager.py:391-406), called only when resources are managed (manager.py:425-426): the
order with its team. -/
def setResources (sp : Specs) (s : St) (wk : Work) (w : Nat) : St × Work × Option MErr :=
  match s.rm with
  | none => (s, wk, none)
  | some rm =>
    match teamOf sp wk w with
    | none => (s, wk, some .index)
    | some team =>
      let wk := { wk with team := some team }
      match assignRsets rm team w with
      | none => (s, wk, some .index)
      | some rm => ({ s with rm := some rm, tr := .assign w team :: s.tr }, wk, none)

/-- Worker id of a table position. -/
def idAt (sp : Specs) (k : Nat) : Nat := if sp.gom then k else k + 1

/-- The rest of `_send_work_order` after the order itself (manager.py:430-442). -/
def sendRows (sp : Specs) (s : St) (wk : Work) (w k : Nat) (t : Int) : R :=
  let s := if wk.tag = EVAL_GEN then modW sp s w (fun x => { x with genStarted := t }) else s
  if wk.tag ≠ EVAL_SIM ∧ wk.tag ≠ EVAL_GEN ∧ wk.tag ≠ PERSIS_STOP then (s, some .key)
  else if wk.rows.isEmpty then (s, none)
  else if ¬ wk.fields.Nodup then (s, some .value)
  else if wk.rows.any (fun i => decide (s.hist.rows.length ≤ i)) then (s, some .index)
  else (emit s (.rows (idAt sp k) wk.rows (wk.rows.filterMap (s.hist.rows[·]?))), none)

/-- `_send_work_order` (manager.py:421-442). -/
def sendOrder (sp : Specs) (s : St) (wk : Work) (w : Nat) (t : Int) : R :=
  match setResources sp s wk w with
  | (s, _, some e) => (s, some e)
  | (s, wk, none) =>
    match wPos sp.gom s.W.length w with
    | none => (s, some .index)
    | some k => sendRows sp (emit s (.order (idAt sp k) w wk)) wk w k t

/-- `_update_state_on_alloc` (manager.py:444-459). -/
def updateOnAlloc (sp : Specs) (s : St) (wk : Work) (w : Nat) (t : Int) : R :=
  let s := modW sp s w (fun x => { x with active := wk.tag })
  if !wk.persistent && wk.activeRecv.isSome then (s, some .recvNotPersistent)
  else
    let s := if wk.persistent then
        modW sp s w (fun x => { x with persis := wk.tag, activeRecv := x.activeRecv || wk.activeRecv.getD false })
      else s
    if wk.tag = EVAL_SIM then doOp s (.giveSim wk.rows w t sp.kill)
    else if wk.tag = EVAL_GEN then doOp s (.giveGen wk.rows t)
    else (s, none)

/-- One pass of the loop over `Work` (manager.py:718-720). -/
def handOut (sp : Specs) (s : St) (wk : Work) (w : Nat) (t : Int) : R :=
  match checkOrder sp s wk w false with
  | some e => (s, some e)
  | none => andThen (sendOrder sp s wk w t) fun s => updateOnAlloc sp s wk w t

/-- The loop over `Work` (manager.py:715-720); each order comes with the clock reading at that time. -/
def handOutAll (sp : Specs) : List (Nat × Work × Int) → St → R
  | [], s => (s, none)
  | (w, wk, t) :: rest, s =>
    if simMaxGiven sp s.hist then (s, none)
    else andThen (handOut sp s wk w t) (handOutAll sp rest)

/-! ### Incoming messages (manager.py:461-560) -/

/-- `_freeup_resources` (manager.py:408-411). -/
def freeup (s : St) (w : Nat) : St :=
  match s.rm with
  | none => s
  | some rm => { s with rm := some (freeRsets rm w), tr := .free w :: s.tr }

/-- `_ensure_sim_id_in_persis_in` (manager.py:413-419). -/
def ensureSimId (sp : Specs) (s : St) (d : Rec) : St :=
  if sp.generator && !d.rows.isEmpty && decide (.simId ∈ d.fields) && !decide (.simId ∈ s.persisIn) then
    { s with persisIn := s.persisIn ++ [.simId] }
  else s

/-- manager.py:486-488. -/
def markIdle (sp : Specs) (s : St) (w : Nat) (d : Data) : St :=
  if (!decide (w ∈ s.pending) && !((getW sp s w).map (·.activeRecv)).getD false && !d.keepState) || s.exc then
    modW sp s w (fun x => { x with active := 0 })
  else s

def genStartedOf (sp : Specs) (s : St) (w : Nat) : Int := ((getW sp s w).map (·.genStarted)).getD 0

/-- Data of a finished persistent function (manager.py:491-499). -/
def finalData (sp : Specs) (s : St) (w : Nat) (d : Data) (t : Int) : R :=
  match d.out with
  | .arr r =>
    if d.calcStatus = FINISHED_PERSISTENT_GEN ∧ sp.retGen = true then
      let s := ensureSimId sp s r
      doOp s (.genReturn w r (genStartedOf sp s w) t)
    else if d.calcStatus = FINISHED_PERSISTENT_SIM ∧ sp.retSim = true then
      doOp s (.simReturn d.rows (some r) t sp.kill)
    else (s, none)
  | _ => (s, none)

/-- A persistent worker has finished (manager.py:500-507). -/
def finishPersis (sp : Specs) (s : St) (w : Nat) : St :=
  let s := modW sp s w (fun x => if x.activeRecv then { x with persis := 0, active := 0, activeRecv := false }
    else { x with persis := 0 })
  let s := if w ∈ s.pending then
      modW sp { s with pending := s.pending.erase w } w (fun x => { x with active := 0 })
    else s
  freeup s w

/-- A simulation result (manager.py:509-520). -/
def simData (sp : Specs) (s : St) (d : Data) (t : Int) : R :=
  match d.out with
  | .other =>
    if s.exc then (s, none)
    else (killWorkers (emit { s with exc := true } .exc), some .worker)
  | .none => doOp s (.simReturn d.rows none t sp.kill)
  | .arr r => doOp s (.simReturn d.rows (some r) t sp.kill)

/-- The points of a generator (manager.py:521-527). -/
def genData (sp : Specs) (s : St) (w : Nat) (d : Data) (t : Int) : R :=
  match d.out with
  | .arr r =>
    let s := ensureSimId sp s r
    andThen (doOp s (.genReturn w r (genStartedOf sp s w) t)) fun s =>
      if !r.rows.isEmpty || anyActive s || decide (((getW sp s w).map (·.persis)).getD 0 ≠ 0) then (s, none)
      else (s, some .emptyGen)
  | _ => (s, some .type)

/-- Results of a worker that goes on or is done with its task (manager.py:508-532). -/
def workData (sp : Specs) (s : St) (w : Nat) (d : Data) (t : Int) : R :=
  andThen (if d.calcType = EVAL_SIM then simData sp s d t
    else if d.calcType = EVAL_GEN then genData sp s w d t else (s, none)) fun s =>
    if d.persistent then (modW sp s w (fun x => { x with persis := d.calcType }), none)
    else (freeup s w, none)

/-- `_update_state_on_worker_msg` (manager.py:481-538). -/
def updateOnMsg (sp : Specs) (s : St) (w : Nat) (d : Data) (t : Int) : R :=
  let s := markIdle sp s w d
  if d.calcStatus = FINISHED_PERSISTENT_SIM ∨ d.calcStatus = FINISHED_PERSISTENT_GEN then
    andThen (finalData sp s w d t) fun s => (finishPersis sp s w, none)
  else workData sp s w d t

/-- `_handle_msg_from_worker` (manager.py:540-560). -/
def handleMsg (sp : Specs) (s : St) (w : Nat) (m : Msg) (t : Int) : R :=
  let s := emit s (.recv w m)
  match m with
  | .finished => (s, none)
  | .err =>
    let s := modW sp s w (fun x => { x with active := 0 })
    if s.exc then (s, none)
    else (killWorkers (emit { s with exc := true } .exc), some .worker)
  | .log => (s, none)
  | .data d => updateOnMsg sp s w d t

/-- A message in a channel: worker, contents, time at which the manager handles it. -/
structure Mail where
  w : Nat
  m : Msg
  t : Int

/-- The loop of `_receive_from_workers` (manager.py:471-476).  `mail` are the messages that arrive during the call,
in the order in which they are handled; only channels of workers in the table are looked at. -/
def handleAll (sp : Specs) : List Mail → St → R
  | [], s => (s, none)
  | x :: xs, s =>
    if x.w ∈ ids s then andThen (handleMsg sp s x.w x.m x.t) (handleAll sp xs)
    else handleAll sp xs s

/-- `_receive_from_workers` (manager.py:463-479). -/
def receive (sp : Specs) (s : St) (mail : List Mail) : R :=
  andThen (handleAll sp mail s) fun s => (saveK sp s false, none)

/-! ### Kill signals (manager.py:562-583) -/

/-- Is row `i` to be killed (manager.py:568-573)? -/
def toKill (r : Row) : Bool :=
  r.flag .simStarted && r.flag .cancelRequested && !r.flag .simEnded && !r.flag .killSent

/-- The rows looked at (manager.py:566). -/
def killRange (h : Hist) : List Nat := (intRange (h.lastEnded + 1) h.lastStarted).map Int.toNat

def killRows (h : Hist) : List Nat := (killRange h).filter fun i => ((h.rows[i]?).map toKill).getD false

/-- The worker in a `sim_worker` cell.  Simplification: negative numbers are read as 0. -/
def Row.worker (r : Row) : Nat := match r .simWorker with | .s x => x.toNat | .v _ => 0

/-- The loop over `kill_on_workers` (manager.py:581-583), with the row that each entry comes from. -/
def killLoop (sp : Specs) (kids : List Nat) : List (Nat × Nat) → St → R
  | [], s => (s, none)
  | (i, w) :: rest, s =>
    match wPos sp.gom s.W.length w with
    | none => (s, some .index)
    | some k =>
      andThen (doOp (emit s (.kill (idAt sp k) i)) (.markKill kids)) (killLoop sp kids rest)

/-- The worker recorded for row `i`. -/
def workerOf (h : Hist) (i : Nat) : Nat := ((h.rows[i]?).map Row.worker).getD 0

/-- `_kill_cancelled_sims` (manager.py:562-583). -/
def killCancelled (sp : Specs) (s : St) : R :=
  if sp.kill then
    if (killRange s.hist).any (fun i => decide (s.hist.rows.length ≤ i)) then (s, some .index)
    else
      let rs := killRows s.hist
      match resolveAll s.hist.rows.length (rs.filterMap fun i => (s.hist.rows[i]?).map (·.sid)) with
      | none => (s, some .index)
      | some kids => killLoop sp kids (rs.map fun i => (i, workerOf s.hist i)) s
  else (s, none)

/-! ### Allocation and main loop (manager.py:667-736) -/

/-- What the call of `alloc_f` does: exception (of its own or of the checks around it), or work, flag, `persis_info`.
`cancels` are the rows whose `cancel_requested` it sets; other writes into `H` are not modelled (in safe mode a
change of a protected field raises, manager.py:686-687). -/
inductive Reply
  | raised (cancels : List Nat)
  | ok (cancels : List Nat) (work : List (Nat × Work)) (flag : Bool) (pinfo : PInfo)

/-- Everything that comes from outside during one pass of the main loop. -/
structure Iter where
  e1 : Int                          -- timer at the loop condition
  mail : List Mail
  alloc : St → Reply
  t : Nat → Int                     -- clock when worker w is given work
  e2 : Int                          -- timer at the last assertion

/-- Result of a part of the main loop. -/
inductive Flow
  | next
  | flagged                         -- alloc_f asked for shutdown
  | raised (e : MErr)
deriving DecidableEq, Repr

/-- Result of the rest of the pass after `alloc_f` (manager.py:715-723). -/
def afterAlloc (sp : Specs) (s : St) (work : List (Nat × Work)) (t : Nat → Int) (e2 : Int) : St × Flow :=
  match handOutAll sp (work.map fun p => (p.1, p.2, t p.1)) s with
  | (s, some e) => (s, .raised e)
  | (s, none) => if termTest sp s.hist e2 ≠ 0 || anyActive s then (s, .next) else (s, .raised .noWork)

/-- The body of the main loop (manager.py:709-723). -/
def iter (sp : Specs) (s : St) (it : Iter) : St × Flow :=
  match andThen (killCancelled sp s) (fun s => receive sp s it.mail) with
  | (s, some e) => (s, .raised e)
  | (s, none) =>
    match it.alloc s with
    | .raised cs => ((doOp s (.requestCancel cs)).1, .raised .alloc)
    | .ok cs work flag pinfo =>
      let s := { (doOp s (.requestCancel cs)).1 with pinfo := pinfo }
      if flag then (s, .flagged) else afterAlloc sp s work it.t it.e2

/-- How the main loop ended; `running`: not yet (the inputs are a prefix of those of the run). -/
inductive MainEnd
  | running
  | stopped (r : Nat)               -- loop condition
  | flagged
  | raised (e : MErr)
deriving DecidableEq, Repr

/-- The main loop (manager.py:708-723). -/
def mainLoop (sp : Specs) : List Iter → St → St × MainEnd
  | [], s => (s, .running)
  | it :: its, s =>
    let r := termTest sp s.hist it.e1
    let s := emit s (.test r)
    if r ≠ 0 then (s, .stopped r)
    else match iter sp s it with
      | (s, .next) => mainLoop sp its s
      | (s, .flagged) => (s, .flagged)
      | (s, .raised e) => (s, .raised e)

/-! ### Shutdown (manager.py:587-640) -/

/-- The last order to a persistent worker (manager.py:601-607). -/
def lastOrder (s : St) : Work :=
  { tag := PERSIS_STOP, fields := s.persisIn, persistent := true
    rows := rowsWhere s.hist.rows fun r => r.flag .simEnded && !r.flag .genInformed }

/-- What is sent to a persistent worker at the end: an order with the rows not yet returned, or the stop signal
(manager.py:600-612). -/
def stopSend (sp : Specs) (s : St) (w : Nat) (t : Int) : R :=
  if sp.finalGenSend then
    match checkOrder sp s (lastOrder s) w true with
    | some e => (s, some e)
    | none => andThen (sendOrder sp s (lastOrder s) w t) fun s1 => doOp s1 (.giveGen (lastOrder s).rows t)
  else (emit s (.persisStop w), none)

/-- Persistent stop to one worker (manager.py:600-616). -/
def stopPersis (sp : Specs) (s : St) (w : Nat) (t : Int) : R :=
  andThen (stopSend sp s w t) fun s =>
    let s := modW sp s w (fun x => if x.active = 0 then { x with active := x.persis } else x)
    ({ s with pending := s.pending ++ [w] }, none)

def stopAllPersis (sp : Specs) (t : Nat → Int) : List Nat → St → R
  | [], s => (s, none)
  | w :: ws, s => andThen (stopPersis sp s w (t w)) (stopAllPersis sp t ws)

/-- Workers with a persistent function (manager.py:597-598). -/
def persisIds (s : St) : List Nat := (s.W.filter fun k => decide (k.persis ≠ 0)).map (·.id)

/-- One pass of the receiving loop: messages, timer. -/
structure Round where
  mail : List Mail
  e : Int

/-- `exit_flag` after a pass (manager.py:621-630). -/
def exitFlag (sp : Specs) (s : St) (e : Int) : Nat :=
  if s.exc then 1 else if termTest sp s.hist e = 2 ∧ anyPersis s = false then 2 else 0

/-- State, exception, exit flag if the loop has ended. -/
def drain (sp : Specs) : List Round → St → St × Except MErr (Option Nat)
  | [], s => if anyActive s || anyPersis s then (s, .ok none) else (s, .ok (some 0))
  | r :: rs, s =>
    if anyActive s || anyPersis s then
      match receive sp s r.mail with
      | (s, some e) => (s, .error e)
      | (s, none) =>
        let f := exitFlag sp s r.e
        if f = 0 then drain sp rs s else (s, .ok (some f))
    else (s, .ok (some 0))

/-- How `_final_receive_and_kill` ended; `waiting`: not yet. -/
inductive FinEnd
  | waiting
  | done (flag : Nat)
  | raised (e : MErr)
deriving DecidableEq, Repr

/-- `_final_receive_and_kill` (manager.py:587-640). -/
def finalPhase (sp : Specs) (s : St) (t : Nat → Int) (rounds : List Round) : St × FinEnd :=
  match stopAllPersis sp t (persisIds s) s with
  | (s, some e) => (s, .raised e)
  | (s, none) =>
    match drain sp rounds s with
    | (s, .error e) => (s, .raised e)
    | (s, .ok none) => (s, .waiting)
    | (s, .ok (some f)) =>
      let s := killWorkers (saveK sp s sp.saveDone)
      ({ s with pinfo := { s.pinfo with numGensStarted := 0 } }, .done f)

/-- How `run` ended. -/
inductive Outcome
  | running                          -- in the main loop
  | waiting                          -- in the receiving loop of the shutdown
  | returned (flag : Nat)
  | raised (e : MErr)                -- LoggedException for an error of the main loop
  | raisedFinal (e : MErr)           -- an error of the shutdown
deriving DecidableEq, Repr

/-- `run` (manager.py:701-736) on the inputs `its` of the main loop and `t`, `rounds` of the shutdown. -/
def run (sp : Specs) (s : St) (its : List Iter) (t : Nat → Int) (rounds : List Round) : St × Outcome :=
  match mainLoop sp its s with
  | (s, .running) => (s, .running)
  | (s, e) =>
    match finalPhase sp (emit s .final) t rounds with
    | (s, .waiting) => (s, .waiting)
    | (s, .raised x) => (s, .raisedFinal x)
    | (s, .done f) =>
      match e with
      | .raised x => (s, .raised x)
      | _ => (s, .returned f)

/-- `Manager.__init__` (manager.py:192-260): `n` worker channels, `zero` the zero-resource workers, `gens` the
generator workers. -/
def initW (gom : Bool) (n : Nat) (zero gens : List Nat) : List Wrk :=
  (if gom then List.range (n + 1) else List.range' 1 n).map fun i =>
    { id := i, genWorker := decide (i ∈ gens) || (gom && decide (i = 0)), zrw := decide (i ∈ zero) }

def initSt (sp : Specs) (n : Nat) (zero gens : List Nat) (h : Hist) (rm : Option RM) (p : PInfo) (persisIn : List Field) :
    St :=
  { hist := h, W := initW sp.gom n zero gens, rm := rm, pinfo := p, persisIn := persisIn }

end Verif.Manager
