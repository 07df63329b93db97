/-!
# Log files and the statistics file

Python's loggers `libensemble` (with all module loggers below it) and `libensemble.calc stats`, their handlers in manager and worker processes, and the way of a record
from a worker to the files of the manager (comms/logs.py, logger.py, manager.py:555-557, libE.py:447-503).

Simplifications: the root logger has no handlers; the user adds no handlers, filters or levels of their own to libEnsemble's loggers; names of levels are those below
(`getattr(logging, …)` finds other attributes of the module too); formatting apart from the label of statistics lines, and the directory that `set_directory` makes, are left out; threads are taken to log after the set-up of the manager; a message of a
worker is what its communicator delivers (C40, C41).
-/

namespace Verif.Logs

/-- Names of levels (Python's module logging; logger.py:7-9, 19-21). -/
def levels : List (String × Nat) :=
  [("CRITICAL", 50), ("FATAL", 50), ("ERROR", 40), ("MANAGER_WARNING", 35), ("WARNING", 30), ("WARN", 30), ("INFO", 20), ("DEBUG", 10), ("VDEBUG", 5), ("NOTSET", 0)]

/-- A record: its level, whether it belongs to the statistics, its text, and the worker noted on it (the attributes `worker` and `prefix`, which the same filter sets). -/
structure Record where
  lvl : Nat
  stats : Bool
  text : Nat
  tag : Option Nat := none
deriving DecidableEq, Repr

/-- The beginning of a line in the statistics file (logs.py:84-95). -/
def label (w : Nat) : List Char :=
  if w = 0 then "Manager     ".toList else "Worker ".toList ++ (List.replicate (5 - (Nat.toDigits 10 w).length) ' ' ++ Nat.toDigits 10 w)

/-- Handlers (logs.py:63-77, 104-113, 167-197): to the communicator of worker `w`; to a file; to stderr from a level on. The last two carry the filter `WorkerIDFilter(0)`. -/
inductive Handler
  | comm (w : Nat)
  | file (name : String)
  | stderr (lvl : Nat)
deriving DecidableEq, Repr

/-- A logger: its level (0: not set), `propagate`, and its handlers. -/
structure Logger where
  lvl : Nat := 0
  prop : Bool := true
  hs : List Handler := []
deriving DecidableEq, Repr

/-- `LogConfig` (logs.py:21-36) and the two loggers of a process. -/
structure Proc where
  set : Bool := false
  level : Nat := 20
  errLevel : Nat := 35
  file : String := "ensemble.log"
  statFile : String := "libE_stats.txt"
  main : Logger := {}
  stats : Logger := {}
deriving DecidableEq, Repr

/-- What leaves a process: a record sent over the communicator of worker `w`, a line of a file, a line on stderr, a line of the handler that Python uses when it finds none. -/
inductive Out
  | sent (w : Nat) (r : Record)
  | line (file : String) (r : Record)
  | err (r : Record)
  | lastResort (r : Record)
deriving DecidableEq, Repr

/-! ### Python's logging -/

/-- One handler. Filters note the worker on the record unless there is one (logs.py:97-101), and the record goes on to the next handler with it. -/
def Handler.emit (h : Handler) (r : Record) : Record × List Out := match h with
  | .comm w => let r := { r with tag := some (r.tag.getD w) }; (r, [.sent w r])
  | .file f => let r := { r with tag := some (r.tag.getD 0) }; (r, [.line f r])
  | .stderr l => let r := { r with tag := some (r.tag.getD 0) }; (r, if l ≤ r.lvl then [.err r] else [])   -- ErrorFilter, logs.py:111-113

def emitAll : List Handler → Record → List Out
  | [], _ => []
  | h :: hs, r => (h.emit r).2 ++ emitAll hs (h.emit r).1

/-- The handlers that see a record (`Logger.callHandlers`): those of its logger and of the ones above while `propagate` is set. -/
def chain (p : Proc) (stats : Bool) : List Handler :=
  if stats then p.stats.hs ++ (if p.stats.prop then p.main.hs else []) else p.main.hs

/-- `Logger.handle`: no test of the level. Without any handler Python writes warnings and errors to stderr. -/
def handle (p : Proc) (r : Record) : List Out :=
  if (chain p r.stats).isEmpty then (if 30 ≤ r.lvl then [.lastResort r] else []) else emitAll (chain p r.stats) r

/-- The effective level of a logger; the root logger has WARNING. -/
def effective (p : Proc) (stats : Bool) : Nat :=
  let m := if p.main.lvl ≠ 0 then p.main.lvl else 30
  if stats then (if p.stats.lvl ≠ 0 then p.stats.lvl else m) else m

/-- A call such as `logger.info(…)`. -/
def log (p : Proc) (r : Record) : List Out := if effective p r.stats ≤ r.lvl then handle p r else []

/-! ### libEnsemble's configuration -/

/-- `set_level` (logs.py:38-44). -/
def setLevel (p : Proc) (name : String) : Proc :=
  let l := (levels.lookup name.toUpper).getD 10
  if p.set then { p with level := l, main := { p.main with lvl := l } } else { p with level := l }

/-- `set_stderr_level` (logs.py:46-49). -/
def setErrLevel (p : Proc) (name : String) : Proc := { p with errLevel := (levels.lookup name.toUpper).getD 30 }

/-- `logger.set_filename` (logger.py:46-53). -/
def setFile (p : Proc) (f : String) : Proc := if p.set then p else { p with file := f }

/-- `set_directory` (logs.py:51-60): the file names without their directories, in the new directory. -/
def setDir (p : Proc) (inDir : String → String) : Proc := { p with file := inDir p.file, statFile := inDir p.statFile }

/-- `worker_logging_config` (logs.py:134-152, 128-131). -/
def workerConfig (p : Proc) (w : Nat) : Proc :=
  let p := if p.set then { p with main := { p.main with hs := [] }, stats := { p.stats with hs := [] } }
    else { p with main := { p.main with prop := false, lvl := p.level }, stats := { p.stats with prop := false, lvl := p.level }, set := true }
  { p with main := { p.main with hs := p.main.hs ++ [Handler.comm w] }, stats := { p.stats with hs := p.stats.hs ++ [Handler.comm w] } }

/-- `manager_logging_config` (logs.py:155-197), after `set_directory` if there is a workflow directory. The flag is set before the handlers of the second logger are removed. -/
def managerConfig (p : Proc) : Proc :=
  let p := if p.set then { p with main := { p.main with hs := [] } } else p
  let p := { p with main := { lvl := p.level, prop := false, hs := p.main.hs ++ [Handler.file p.file] }, set := true }
  let p := { p with stats := { lvl := 10, prop := false, hs := [Handler.file p.statFile] } }
  { p with main := { p.main with hs := p.main.hs ++ [Handler.stderr p.errLevel] } }

/-- What the process of a calling script does: settings, and calls of `libE` as manager (with or without `disable_log_files`, with or without a workflow
directory) or, with MPI, as worker `w`. -/
inductive Act
  | level (name : String)
  | errLevel (name : String)
  | file (f : String)
  | dir (inDir : String → String)
  | manage (files : Bool) (wdir : Option (String → String))
  | work (w : Nat)

def act (p : Proc) : Act → Proc
  | .level n => setLevel p n
  | .errLevel n => setErrLevel p n
  | .file f => setFile p f
  | .dir d => setDir p d
  | .manage files wdir => if files then managerConfig (match wdir with | some d => setDir p d | none => p) else p
  | .work w => workerConfig p w

/-- A process after its actions. -/
def proc (as : List Act) : Proc := as.foldl act {}

/-- The three kinds of workers (libE.py:447-462, 436-440, 626-640): forked from the manager before it sets up its log files; another process, with its own actions; a
thread of the manager, with the manager's loggers. -/
inductive Kind
  | forked
  | own (as : List Act)
  | thread
deriving Inhabited

/-- The loggers of worker `w`; `before`, `after`: the manager's process before and after its set-up. -/
def worker (k : Kind) (before after : Proc) (w : Nat) : Proc := match k with
  | .forked => workerConfig before w
  | .own as => workerConfig (proc as) w
  | .thread => after

/-- The manager handles what arrives (manager.py:555-557); everything else happens where it is. -/
def deliver (mgr : Proc) : Out → List Out
  | .sent _ r => handle mgr r
  | o => [o]

/-- What becomes of a record that worker `w` logs. -/
def fromWorker (k : Kind) (before after : Proc) (w : Nat) (r : Record) : List Out :=
  (log (worker k before after w) r).flatMap (deliver after)

end Verif.Logs
