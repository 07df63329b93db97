/-
Tasks of an executor (libensemble/executors/executor.py), processes (libensemble/utils/launcher.py), launching with retries
(libensemble/executors/mpi_executor.py).

A process runs until it ends with a code; when and with which code is not determined.  Every call that takes time is told
what the process does meanwhile.  Not modelled: output files, environment, run lines, names, log messages, times other than
`runtime` (whole units).
-/
namespace Verif.Exec

/-- executor.py:36-44 (UNKNOWN and WAITING are never set). -/
inductive State
  | created | running | finished | userKilled | failed | failedToStart
deriving DecidableEq, Repr

/-- Signals sent to the process (launcher.py:34-59). -/
inductive Sig
  | term | kill
deriving DecidableEq, Repr

/-- `subprocess.Popen`: the code with which the process has ended, the signals sent to it. -/
structure Proc where
  ended : Option Int := none
  sigs : List Sig := []
deriving DecidableEq, Repr

/-- executor.py:159-169 and `dry_run`. -/
structure Task where
  state : State := .created
  proc : Option Proc := none
  errcode : Option Int := none
  finished : Bool := false
  success : Bool := false
  runtime : Nat := 0
  dryRun : Bool := false
deriving DecidableEq, Repr

/-- executor.py:159-169. -/
def Task.reset (t : Task) : Task := { dryRun := t.dryRun }

/-- executor.py:234-245; `el`: time on the timer; `c`: the code of the process. -/
def Task.setComplete (t : Task) (c : Int) (el : Nat) : Task :=
  if t.dryRun then { t with finished := true, success := true, state := .finished }
  else { t with finished := true, runtime := el, errcode := some c, success := c == 0, state := if c = 0 then .finished else .failed }

/-- What a call does: it returns, raises `TimeoutExpired`, raises `ExecutorException`, or never returns. -/
inductive Res
  | ok | timeout | error | hangs
deriving DecidableEq, Repr

/-- executor.py:247-263 with 226-232. -/
def Task.poll (t : Task) (el : Nat) : Task × Res :=
  if t.dryRun then (t.setComplete 0 el, .ok)
  else match t.proc with
    | none => (t, .error)
    | some p =>
      if t.finished then (t, .ok)
      else match p.ended with
        | none => ({ t with state := .running, runtime := el }, .ok)
        | some c => (t.setComplete c el, .ok)

/-- The process ends with `c` if it is running. -/
def Proc.exit (p : Proc) (c : Int) : Proc :=
  match p.ended with
  | some _ => p
  | none => { p with ended := some c }

/-- executor.py:265-292 with launcher.py:72-77; `d`: how the process ends while being waited for, `lim`: there is a timeout. -/
def Task.wait (t : Task) (lim : Bool) (d : Option Int) (el : Nat) : Task × Res :=
  if t.dryRun then (t.setComplete 0 el, .ok)
  else match t.proc with
    | none => (t, .error)
    | some p =>
      if t.finished then (t, .ok)
      else match p.ended, d with
        | some c, _ => (t.setComplete c el, .ok)
        | none, some c => (({ t with proc := some (p.exit c) }).setComplete c el, .ok)
        | none, none => (t, if lim then .timeout else .hangs)

/-- launcher.py:91-92 with 48-59: SIGTERM if there is a grace period. -/
def Proc.terminate (p : Proc) (w : Option Nat) : Proc :=
  match w with
  | some (_ + 1) => { p with sigs := p.sigs ++ [.term] }
  | _ => p

/-- launcher.py:80-93; `d1`: how the process ends in the grace period, `d2`: how it ends after SIGKILL.  `none`: never returns. -/
def Proc.cancel (p : Proc) (w : Option Nat) (d1 : Option Int) (d2 : Int) : Option Proc :=
  if p.ended.isSome then some (p.terminate w)
  else match d1 with
    | some c => some ((p.terminate w).exit c)
    | none => match w with
      | none => none
      | some _ => some (({ p.terminate w with sigs := (p.terminate w).sigs ++ [.kill] } : Proc).exit d2)

/-- executor.py:333-368; `w`: `wait_time`. -/
def Task.kill (t : Task) (w : Option Nat) (d1 : Option Int) (d2 : Int) (el : Nat) : Task × Res :=
  match t.poll el with
  | (t, .ok) =>
    if t.dryRun then (t, .ok)
    else if t.finished then (t, .ok)
    else match t.proc with
      | none => (t, .error)
      | some p => match p.cancel w d1 d2 with
        | none => (t, .hangs)
        | some p => ({ t with proc := some p, state := .userKilled, finished := true, runtime := el }, .ok)
  | (t, r) => (t, r)

/-- What happens to a task that has been submitted: the process ends, or a call (`done`, `running`, `cancelled` are polls,
`result` and `exception` are waits, `cancel` is `kill` without time limit). -/
inductive Act
  | ends (c : Int)
  | poll (el : Nat)
  | wait (lim : Bool) (d : Option Int) (el : Nat)
  | kill (w : Option Nat) (d1 : Option Int) (d2 : Int) (el : Nat)
deriving DecidableEq, Repr

def Task.act (t : Task) : Act → Task
  | .ends c => { t with proc := t.proc.map (·.exit c) }
  | .poll el => (t.poll el).1
  | .wait lim d el => (t.wait lim d el).1
  | .kill w d1 d2 el => (t.kill w d1 d2 el).1

def Task.acts (t : Task) (as : List Act) : Task := as.foldl Task.act t

/-! ### Launching (mpi_executor.py:139-184) -/

/-- One attempt: the process cannot be started, or it is started and has ended with some code or not by the time of the
last poll (with `wait_on_start` the polls of executor.py:391-414 come first; they end when the task has ended or the time
is over). -/
inductive Attempt
  | fails
  | starts (e : Option Int) (el : Nat)
deriving DecidableEq, Repr

/-- mpi_executor.py:147-169. -/
def Task.attempt (t : Task) : Attempt → Task
  | .fails => { t with state := .failedToStart, finished := true }
  | .starts e el => (({ t with proc := some { ended := e } } : Task).poll el).1

/-- mpi_executor.py:164, 171-176. -/
def Task.retry (t : Task) : Attempt → Bool
  | .fails => true
  | .starts _ _ => t.state = .failed

/-- The loop.  `left`: attempts that may still be made.  Returns the task and the number of attempts made. -/
def launch (t : Task) : Nat → List Attempt → Task × Nat
  | 0, _ => (t, 0)
  | _, [] => (t, 0)
  | left + 1, a :: as =>
    if (t.attempt a).retry a = true ∧ left ≠ 0 then
      let r := launch (t.attempt a).reset left as
      (r.1, r.2 + 1)
    else (t.attempt a, 1)

/-! ### The polling loop (executor.py:612-647) -/

/-! message_numbers.py -/
abbrev UNSET : Int := 0
abbrev FINISH : Int := 20
abbrev KILL : Int := 21
abbrev KILL_ON_TIMEOUT : Int := 32
abbrev TASK_FAILED : Int := 33
abbrev TASK_FAILED_TO_START : Int := 34
abbrev WORKER_DONE : Int := 35

/-- One pass: how the process ends before the poll (if it does), time, the signal found by `manager_poll`, and what the
process does if it is killed in this pass. -/
structure Pass where
  ends : Option Int := none
  el : Nat
  signal : Option Int := none
  d0 : Option Int := none                 -- ends between poll and kill
  d1 : Option Int := none
  d2 : Int := -9
deriving DecidableEq, Repr

/-- How the loop ends: with a status, or not yet. -/
structure Loop where
  task : Task
  status : Option Int
deriving DecidableEq, Repr

/-- executor.py:634-645. -/
def verdict (t : Task) : Int :=
  match t.state with
  | .finished => WORKER_DONE
  | .failedToStart => TASK_FAILED_TO_START
  | .failed => TASK_FAILED
  | _ => UNSET

/-- `task.kill()` in the loop, with the default waiting time of 60 (executor.py:622, 627). -/
def Task.killIn (t : Task) (p : Pass) : Task :=
  let t := match p.d0 with
    | some c => t.act (.ends c)
    | none => t
  (t.kill (some 60) p.d1 p.d2 p.el).1

/-- executor.py:626. -/
def over (timeout : Option Nat) (runtime : Nat) : Bool :=
  match timeout with
  | some x => decide (runtime > x)
  | none => false

/-- executor.py:612-647; the script of passes may end before the loop does. -/
def pollingLoop (t : Task) (timeout : Option Nat) (pollManager : Bool) : List Pass → Loop
  | [] => if t.finished then ⟨t, some (verdict t)⟩ else ⟨t, none⟩
  | p :: ps =>
    if t.finished then ⟨t, some (verdict t)⟩
    else
      let t := match p.ends with
        | some c => t.act (.ends c)
        | none => t
      match t.poll p.el with
      | (t, .ok) =>
        if pollManager = true ∧ (p.signal = some FINISH ∨ p.signal = some KILL) then ⟨t.killIn p, p.signal⟩
        else if over timeout t.runtime then ⟨t.killIn p, some KILL_ON_TIMEOUT⟩
        else pollingLoop t timeout pollManager ps
      | (t, _) => ⟨t, some (verdict t)⟩

end Verif.Exec
