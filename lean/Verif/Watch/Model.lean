import Verif.Exec.Model
import Verif.Worker.Model
/-!
# Simulators that watch a task

`custom_polling_loop` of sim_funcs/executor_hworld.py, `borehole` of sim_funcs/borehole_kills.py, and both, with the polling loop of the executor (`Exec/Model`), as user functions of a worker
(`Worker/Model`).

Every call starts a task whose process runs; what it does is a script: for each call of the user function and each pass of the loop.  Signals are not in the script: they are what `manager_poll` finds.
Values of the output fields other than those below are left out.
-/
namespace Verif.Watch
open Verif.Exec

abbrev KILL_ON_ERR : Int := 31

/-- A pass: as in the polling loop, and whether the output has the word "Error" (executor_hworld.py:40-41). -/
structure Look where
  pass : Pass
  err : Bool := false
deriving DecidableEq, Repr

/-- After the loop (executor_hworld.py:50-65); `last`: what the process does while it is killed. -/
def close (t : Task) (status : Int) (last : Pass) : Loop :=
  if t.finished then
    ⟨t, some (if status = UNSET then (match t.state with
      | .finished => WORKER_DONE
      | .failed => TASK_FAILED
      | _ => UNSET) else status)⟩
  else ⟨t.killIn last, some KILL_ON_TIMEOUT⟩

/-- `custom_polling_loop` (executor_hworld.py:20-67); status `none`: more passes are needed (or `poll` has raised an exception, which is not the case for a process that was launched). -/
def customLoop (timeout : Nat) (last : Pass) (t : Task) : List Look → Loop
  | [] => if t.runtime < timeout then ⟨t, none⟩ else close t UNSET last
  | p :: ps =>
    if t.runtime < timeout then
      let t := match p.pass.ends with
        | some c => t.act (.ends c)
        | none => t
      if p.pass.signal = some FINISH ∨ p.pass.signal = some KILL then close (t.killIn p.pass) FINISH last
      else match t.poll p.pass.el with
        | (t, .ok) =>
          if t.finished then close t UNSET last
          else if p.err then close (t.killIn p.pass) KILL_ON_ERR last
          else customLoop timeout last t ps
        | (t, _) => ⟨t, none⟩
    else close t UNSET last

/-- The signal that a poll has found (executor.py:553-571). -/
def signalOf : Worker.Obs → Option Int
  | .poll (some (.sig n)) => some n
  | _ => none

/-- The passes made so far: script and polls. -/
def seen (script : Nat → Look) (h : List Worker.Obs) : List Look :=
  h.reverse.zipIdx.map fun x => { script x.2 with pass := { (script x.2).pass with signal := signalOf x.1 } }

/-- A simulator with the loop of executor_hworld.py; it returns output and status (executor_hworld.py:153). -/
def customSim (t : Task) (timeout : Nat) (last : Pass) (script : Nat → Nat → Look) : Worker.UserF := fun n _ _ h =>
  match (customLoop timeout last t (seen (script n) h)).status with
  | some s => .ret (.pairStatus s)
  | none => .poll

/-- A simulator with `polling_loop(task, timeout, poll_manager=True)` that returns its status. -/
def pollSim (t : Task) (timeout : Option Nat) (script : Nat → Nat → Look) : Worker.UserF := fun n _ _ h =>
  match (pollingLoop t timeout true ((seen (script n) h).map (·.pass))).status with
  | some s => .ret (.pairStatus s)
  | none => .poll

/-- What `borehole` knows of a point: there is a field `sim_killed`, the number of the point is above `num_obs`, the value is above the limit of the failure model. -/
structure Point where
  hasField : Bool
  late : Bool
  big : Bool
deriving DecidableEq, Repr

/-- Status, whether the value is infinite, and `sim_killed`, from the status of the loop (borehole_kills.py:27-30, 50-61). -/
def bore (x : Point) (s : Int) : Int × Bool × Bool :=
  let inf := s = FINISH ∨ s = KILL ∨ s = TASK_FAILED
  if (s = FINISH ∨ s = KILL) ∧ x.hasField = true then (s, true, true)
  else if x.late = true ∧ (inf ∨ x.big = true) then (TASK_FAILED, true, false)
  else (s, decide inf, false)

/-- `borehole` as a user function. -/
def boreSim (x : Point) (t : Task) (script : Nat → Nat → Look) : Worker.UserF := fun n _ _ h =>
  match (pollingLoop t none true ((seen (script n) h).map (·.pass))).status with
  | some s => .ret (.triple (bore x s).1)
  | none => .poll

end Verif.Watch
