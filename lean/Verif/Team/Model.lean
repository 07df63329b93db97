import Verif.History.Model
/-
The end of a run, around the manager: `manager()` of libE.py (saving on an exception, clean-up of the worker team, what the caller
gets) and the team of threads or processes it ends (`kill_proc_team`, libE.py:469-475; `QCommLocal.result`, comms.py:193-208;
`QCommThread.terminate`, 246-257; `QCommProcess.terminate`, 270-276).

Time is not modelled as a number.  What a worker does is given with it: which of its messages come before the time limit of
`result`, and whether it ends by itself within that limit, by itself at all, and on the signal of `Process.terminate`.
-/
namespace Verif.Team

inductive Kind | process | thread
deriving DecidableEq, Repr

/-- A message of a worker to its creator: any message of the worker's program, or the last one of `_qcomm_main` (comms.py:223-233):
the program has returned (`ok`) or an exception has left it. -/
inductive OMsg | other | result (ok : Bool)
deriving DecidableEq, Repr

/-- One worker and the creator's end of it. -/
structure WComm where
  kind : Kind
  inTime : List OMsg            -- what is in the outbox or arrives before the limit
  finished : Option Bool        -- `_done`, with `_result` (true) or `_exception` (false)
  alive : Bool                  -- `running`
  endsInTime : Bool             -- ends by itself before the limit
  ends : Bool                   -- ends by itself some time
  obeysInTime : Bool            -- a process: ends before the limit when it gets the signal of `terminate`
  obeys : Bool                  -- a process: ends some time when it gets that signal
deriving DecidableEq, Repr

/-- How a call ends. -/
inductive Res | ok | timeout | remote | hang
deriving DecidableEq, Repr

/-- `terminate(timeout)`; `limit`: a limit is given (otherwise `join` waits for ever).  comms.py:255-257, 272-276. -/
def WComm.terminate (w : WComm) (limit : Bool) : WComm × Res :=
  match w.alive, w.kind with
  | false, _ => (w, .ok)
  | true, .process =>
    if (if limit then w.obeysInTime || w.endsInTime else w.obeys || w.ends) then ({ w with alive := false }, .ok)
    else (w, if limit then .timeout else .hang)
  | true, .thread =>
    if (if limit then w.endsInTime else w.ends) then ({ w with alive := false }, .ok)
    else (w, if limit then .timeout else .hang)

/-- The loop of `result` (comms.py:195-204): messages are taken until the last one. -/
def drain : List OMsg → Option Bool × List OMsg
  | [] => (none, [])
  | .other :: ms => drain ms
  | .result ok :: ms => (some ok, ms)

/-- The loop of `result` (comms.py:195-204): what is known of the worker's end, and the messages left. -/
def WComm.gather (w : WComm) : Option Bool × List OMsg := match w.finished with
  | some ok => (some ok, w.inTime)
  | none => drain w.inTime

/-- `result(timeout)` (comms.py:193-208). -/
def WComm.result (w : WComm) : WComm × Res :=
  match w.gather with
  | (none, ms) => ({ w with inTime := ms }, .timeout)
  | (some ok, ms) =>
    match ({ w with inTime := ms, finished := some ok } : WComm).terminate true with
    | (w, .ok) => (w, if ok then .ok else .remote)
    | (w, r) => (w, r)

/-- One pass of the loop of `kill_proc_team` (libE.py:472-475). -/
def WComm.kill (w : WComm) : WComm × Res :=
  match w.result with
  | (w, .timeout) => w.terminate false
  | (w, r) => (w, r)

/-- `kill_proc_team` (libE.py:469-475): only `Timeout` is caught. -/
def killTeam : List WComm → List WComm × Res
  | [] => ([], .ok)
  | w :: ws =>
    match w.kill with
    | (w, .ok) => let r := killTeam ws; (w :: r.1, r.2)
    | (w, r) => (w :: ws, r)

/-! ### `manager()` -/

/-- How `manager_main` ends: it returns its flag, or raises one of the three kinds of exceptions told apart in libE.py:289-303. -/
inductive Main | returns (flag : Nat) | logged | worker | other
deriving DecidableEq, Repr

/-- What is done around it. -/
inductive Eff
  | dump (rows : List History.Row) (count : Nat)   -- files written by `_dump_on_abort` (libE.py:646-654)
  | cleanup
  | abort                                          -- `on_abort`

/-- What the caller gets: history and flag, or an exception: the `LoggedException` of libE.py:313, or the one that left the
clean-up.  `gone`: MPI has been aborted; `stuck`: the clean-up does not come back. -/
inductive Fin
  | value (H : List History.Row) (flag : Nat)
  | logged
  | remote
  | gone
  | stuck

/-- The options read (`save_H_and_persis_on_abort`, `abort_on_exception`), and whether there is an `on_abort` (MPI). -/
structure Opts where
  save : Bool
  abort : Bool
  onAbort : Bool
deriving DecidableEq, Repr

/-- How the exception of the clean-up, if any, changes the outcome (libE.py:318-320: a `finally` clause). -/
def after (r : Res) (f : Fin) : Fin := match r with
  | .ok => f
  | .timeout => .remote
  | .remote => .remote
  | .hang => .stuck

/-- `manager()` (libE.py:270-323) with a clean-up that ends as `r`. -/
def wrap (o : Opts) (h : History.Hist) (m : Main) (r : Res) : List Eff × Fin :=
  match m with
  | .returns flag => ([.cleanup], after r (.value (History.trimH h) flag))
  | _ =>
    let d := if o.save then [Eff.dump (History.trimH h) h.simEndedCount] else []
    if o.abort && o.onAbort then
      match r with
      | .ok => (d ++ [.cleanup, .abort], .gone)
      | _ => (d ++ [.cleanup, .cleanup], after r .logged)
    else (d ++ [.cleanup], after r .logged)

/-- `libE_local` (libE.py:478-513) from `manager_main` on. -/
def libELocal (o : Opts) (h : History.Hist) (m : Main) (team : List WComm) : List WComm × List Eff × Fin :=
  let t := killTeam team
  (t.1, wrap { o with onAbort := false } h m t.2)

end Verif.Team
