/-!
# Timers and the times of tasks

utils/timer.py, the attributes `submit_time`, `runtime`, `total_time` of tasks (executors/executor.py), how they are set by a launch with retries
(executors/mpi_executor.py), and the times of tasks in libE_stats.txt.  States and signals of tasks are in `Exec/Model`.

Times are integers (milliseconds, timer.py:10); each call is given the time at which it reads the clock.  Dates as text are not modelled.
-/

namespace Verif.Timing

/-- `Timer.__init__` (timer.py:32-37). -/
structure Timer where
  tcum : Int := 0
  tstart : Int := 0
  tend : Int := 0
  timing : Bool := false
deriving DecidableEq, Repr

/-- timer.py:68-71 -/
def Timer.start (t : Timer) (now : Int) : Timer := { t with tstart := now, timing := true }

/-- timer.py:73-77 -/
def Timer.stop (t : Timer) (now : Int) : Timer := { t with tend := now, timing := false, tcum := t.tcum + (now - t.tstart) }

/-- timer.py:55-59 -/
def Timer.elapsed (t : Timer) (now : Int) : Int := (if t.timing then now else t.tend) - t.tstart

/-- timer.py:61-66 -/
def Timer.total (t : Timer) (now : Int) : Int := if t.timing then t.tcum + t.elapsed now else t.tcum

/-- A task (executor.py:138-139, 159-169); `failed`: the state is FAILED. -/
structure Task where
  timer : Timer := {}
  finished : Bool := false
  failed : Bool := false
  submit : Option Int := none
  runtime : Int := 0
  total : Option Int := none
deriving DecidableEq, Repr

/-- `reset` (executor.py:159-169) leaves the timer. -/
def Task.reset (t : Task) : Task := { timer := t.timer }

/-- `calc_task_timing` (executor.py:207-217). -/
def Task.calcTiming (t : Task) (now : Int) : Task :=
  match t.submit, t.total with
  | some _, none =>
    let tm := t.timer.stop now
    { t with timer := tm, runtime := tm.elapsed now, total := some (tm.elapsed now) }
  | _, _ => t

/-- What is done with a task: `poll` (or `wait`) with the code of the process if it has ended, `kill`, which reads the clock again
`after` the process has ended. -/
inductive Act
  | poll (now : Int) (ended : Option Int)
  | kill (now : Int) (ended : Option Int) (after : Int)
deriving DecidableEq, Repr

/-- `poll` (executor.py:247-263), `_set_complete` (executor.py:234-245). -/
def Task.poll (t : Task) (now : Int) (ended : Option Int) : Task :=
  if t.finished then t else match ended with
    | none => { t with runtime := t.timer.elapsed now }
    | some c => { ({ t with finished := true } : Task).calcTiming now with failed := c != 0 }

/-- `kill` (executor.py:333-368). -/
def Task.kill (t : Task) (now : Int) (ended : Option Int) (after : Int) : Task :=
  if (t.poll now ended).finished then t.poll now ended
  else ({ t.poll now ended with finished := true } : Task).calcTiming after

def Task.act (t : Task) : Act → Task
  | .poll now e => t.poll now e
  | .kill now e after => t.kill now e after

/-- The timer is started and `submit_time` set (executor.py:399-400, 406-407, 806-807, mpi_executor.py:385-386). -/
def Task.start (t : Task) (now : Int) : Task := { t with timer := t.timer.start now, submit := some now }

/-- A process that was launched: times and results of the polls.  `polls`: those of executor.py:410-413 and of mpi_executor.py:169. -/
structure Try where
  t0 : Int := 0                       -- executor.py:399
  t1 : Int := 0                       -- executor.py:403
  e1 : Option Int := none
  t2 : Int := 0                       -- executor.py:406
  polls : List (Int × Option Int) := []
deriving DecidableEq, Repr

/-- `_wait_on_start` (executor.py:391-414) and the poll after it. A poll leaves no task in a state of `NOT_STARTED_STATES`, so the first loop has one pass. -/
def Task.waitOnStart (t : Task) (r : Try) : Task :=
  let t := (t.start r.t0).poll r.t1 r.e1
  if t.finished then r.polls.foldl (fun t p => t.poll p.1 p.2) t
  else r.polls.foldl (fun t p => t.poll p.1 p.2) (t.start r.t2)

inductive Attempt
  | fails
  | starts (r : Try)
deriving DecidableEq, Repr

/-- One attempt (mpi_executor.py:147-176). -/
def Task.attempt (t : Task) (wait : Bool) : Attempt → Task
  | .fails => { t with finished := true }
  | .starts r => if wait then t.waitOnStart r else r.polls.foldl (fun t p => t.poll p.1 p.2) t

/-- Whether another attempt is wanted (mpi_executor.py:164, 171-176). -/
def Task.retry (t : Task) : Attempt → Bool
  | .fails => true
  | .starts _ => t.failed

/-- `_launch_with_retries` (mpi_executor.py:139-184); the second component is the number of attempts. -/
def launch (wait : Bool) (t : Task) : Nat → List Attempt → Task × Nat
  | 0, _ => (t, 0)
  | _, [] => (t, 0)
  | left + 1, a :: as =>
    if (t.attempt wait a).retry a = true ∧ left ≠ 0 then
      let r := launch wait (t.attempt wait a).reset left as
      (r.1, r.2 + 1)
    else (t.attempt wait a, 1)

/-- The end of `submit` (mpi_executor.py:384-386, executor.py:805-807). -/
def Task.lateStart (t : Task) (now : Int) : Task := if !t.timer.timing && !t.finished then t.start now else t

/-- `submit`. -/
def submit (wait : Bool) (max : Nat) (as : List Attempt) (now : Int) : Task := (launch wait {} max as).1.lateStart now

/-! ### The tasks in a line of libE_stats.txt -/

/-- `list_of_tasks`, `last_task` of an executor. -/
structure Executor (T : Type) where
  tasks : List T := []
  lastTask : Nat := 0

/-- `new_tasks_timing` (executor.py:654-673): numbers and tasks. -/
def Executor.timing {T : Type} (e : Executor T) : List (Nat × T) × Executor T :=
  let new := e.tasks.drop e.lastTask
  (new.zipIdx.map fun p => (p.2, p.1), { e with lastTask := e.lastTask + new.length })

/-- Tasks submitted, and a line written. -/
inductive Step (T : Type)
  | submit (t : T)
  | line

/-- A worker's life: the lines written. -/
def Executor.run {T : Type} : List (Step T) → Executor T → List (List (Nat × T)) × Executor T
  | [], e => ([], e)
  | .submit t :: ss, e => Executor.run ss { e with tasks := e.tasks ++ [t] }
  | .line :: ss, e =>
    let r := Executor.run ss e.timing.2
    (e.timing.1 :: r.1, r.2)

end Verif.Timing
