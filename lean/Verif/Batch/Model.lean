import Verif.Exec.Model
import Verif.History.Model
/-!
# Simulators that run a task for each point, or replay a run

sim_funcs/var_resources.py: `multi_points_with_variable_resources` and the functions for one point; sim_funcs/mock_sim.py.

The tasks of one call share the file `out.txt`; its first line is all that is read.  Values are numbers without meaning.
Not modelled: the choice of resources (C18-C24, C80), checks of run lines, `dry_run` of the functions for one point, launching
(C27, C83): a task that was submitted has a process or has none.
-/
namespace Verif.Batch
open Verif.Exec (State)

/-- Status of a calculation: a number (message_numbers.py:22-43) or a string (worker.py:297, 312-314). -/
inductive Status
  | num (n : Int)
  | str (s : String)
deriving DecidableEq, Repr

abbrev UNSET : Status := .num 0
abbrev TASK_FAILED : Status := .num 33
abbrev WORKER_DONE : Status := .num 35

/-- What becomes of a task after `submit`: no attempt has started a process, or the process of the last attempt ends with `code`; `line`: the first line it has written to its standard output, if that is a number. -/
inductive Job
  | never
  | ran (code : Int) (line : Option Int)
deriving DecidableEq, Repr

/-- The file `out.txt`: there is none, or its first line as a number if it is one. -/
abbrev File := Option (Option Int)

/-- Exceptions: `task.wait()` without process (executor.py:226-228), `open` without file, `float` of something else. -/
inductive Err
  | noProcess | noFile | notNumber
deriving DecidableEq, Repr

/-- `open("out.txt")` and `float(f.readline().strip())` (var_resources.py:70-71, 242-243). -/
def readNum : File → Except Err Int
  | none => .error .noFile
  | some none => .error .notNumber
  | some (some v) => .ok v

/-- `submit(stdout="out.txt")` and `wait` (var_resources.py:222-232): the file is truncated when the task is launched (mpi_executor.py:151), the state is set at the end (executor.py:234-245). -/
def runTask : Job → Except Err (State × File)
  | .never => .error .noProcess
  | .ran c l => .ok (if c = 0 then .finished else .failed, some l)

/-- A point of `multi_points_with_variable_resources`: its task, and the value of `six_hump_camel_func`. -/
structure Pt where
  job : Job
  value : Int
deriving DecidableEq, Repr

/-- The loop (var_resources.py:212-246): values and states of the tasks; `app`: the application is `six_hump_camel`. -/
def loop (app dry : Bool) : File → List Pt → Except Err (List Int × List State)
  | _, [] => .ok ([], [])
  | file, p :: ps =>
    match (if dry then .ok (State.finished, file) else runTask p.job) with
    | .error e => .error e
    | .ok (st, file) =>
      match (if app then readNum file else .ok p.value) with
      | .error e => .error e
      | .ok v =>
        match loop app dry file ps with
        | .error e => .error e
        | .ok (vs, sts) => .ok (v :: vs, st :: sts)

/-- var_resources.py:248-252. -/
def verdict (sts : List State) : Status :=
  if sts.all (· == .finished) then WORKER_DONE
  else if sts.any (· == .failed) then TASK_FAILED
  else UNSET

/-- `multi_points_with_variable_resources` (var_resources.py:187-254). -/
def multi (app dry : Bool) (file : File) (ps : List Pt) : Except Err (List Int × Status) :=
  match loop app dry file ps with
  | .error e => .error e
  | .ok (vs, sts) => .ok (vs, verdict sts)

/-- `gpu_variable_resources`, `gpu_variable_resources_from_gen`, `CUDA_variable_resources` (var_resources.py:56-77, 96-115, 297-316), no `dry_run`. -/
def single (j : Job) : Except Err (Int × Status) :=
  match runTask j with
  | .error e => .error e
  | .ok (st, file) =>
    match readNum file with
    | .error e => .error e
    | .ok v => .ok (v, if st = .finished then WORKER_DONE else .str "FAILED")

/-- `gpu_variable_resources_subenv` (var_resources.py:155-184), no `dry_run`: the tasks have no `stdout`, so they write to files of their own names (executor.py:150), and only the last is waited for. -/
def subenv (file : File) (j : Job) : Except Err (Int × Status) :=
  match runTask j with
  | .error e => .error e
  | .ok (st, _) =>
    match readNum file with
    | .error e => .error e
    | .ok v => .ok (v, if st = .finished then WORKER_DONE else .str "FAILED")

open Verif.History in
/-- `mock_sim` (mock_sim.py:4-21); `none`: an exception, as there is no row or no such field.  `cols`: `sim_specs["out"]`.  Simplification: fields of the file have the shapes of `cols`. -/
def mockSim (cols : List (Field × Shape)) (file : Rec) : List Nat → Option Rec
  | [] => none
  | r :: _ =>
    match file.rows[r]? with
    | none => none
    | some src =>
      if cols.all (fun c => decide (c.1 ∈ file.fields)) then
        some { cols := cols, rows := [fun f => if f ∈ cols.map (·.1) then src f else .s 0] }
      else none

end Verif.Batch
