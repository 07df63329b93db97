import Verif.Labels.Model

/-!
# What a task is launched with

The executor as an object of a process (executors/executor.py, executors/mpi_executor.py), what workers set in it (worker.py), and the environment variables
of the process, which `_implement_env` changes and launched processes inherit.  `home w` is the process that worker `w` lives in: with `comms` "local", "mpi" and "tcp"
every worker has its own (the executor is copied by `fork` or pickled), with "threads" all share one (libE.py:447-460, worker.py:97-98).

Simplifications: the variables and arguments given for a task are inputs; a dictionary is a list of keys and values; the variables of a task are set one by one, and
the steps of different workers are interleaved in any way.  `match_procs_to_gpus` and attempts after the first (C51, C83) are left out.
-/

namespace Verif.Launches
open Verif.Labels (Str str)

/-- An application (executor.py:74-104); the path stands for all that does not matter here. -/
structure App where
  name : Str
  path : Str
deriving DecidableEq, Repr

/-- The registry of an executor: `apps`, `default_apps` (executor.py:429-430). -/
structure Registry where
  apps : List (Str × App) := []
  sim : Option App := none
  gen : Option App := none

/-- The last part of a path (`os.path.split(full_path)[1]`). -/
def base (p : Str) : Str := (p.reverse.takeWhile (fun c => c != '/')).reverse

/-- `register_app` (executor.py:496-541): the registry afterwards, and whether an exception was raised. -/
def registerApp (r : Registry) (path : Str) (name calcType : Option Str) : Registry × Bool :=
  let n := match name with
    | some (c :: s) => c :: s
    | _ => base path
  let a : App := ⟨if n = [] then base path else n, path⟩
  let r := { r with apps := (n, a) :: r.apps }
  match calcType with
  | none => (r, false)
  | some t =>
    if t = "sim".toList then ({ r with sim := some a }, false)
    else if t = "gen".toList then ({ r with gen := some a }, false)
    else (r, true)

/-- The choice of the application in `submit` (executor.py:761-766, mpi_executor.py:307-312, with `get_app` and `default_app`, executor.py:460-476). -/
def chooseApp (r : Registry) (name calcType : Option Str) : Option App :=
  match name, calcType with
  | some n, _ => (r.apps.find? (fun x => x.1 == n)).map (·.2)
  | none, some t => if t = "sim".toList then r.sim else if t = "gen".toList then r.gen else none
  | none, none => none

/-- A task: what its constructor sets (executor.py:120-159), its variables (`env`), the numbers of processes and GPUs asked for, and which worker has submitted it. -/
structure Task where
  id : Nat
  app : App
  wid : Option Nat
  env : List (Str × Str)
  procs : Option Nat
  gpus : Option Nat
  owner : Nat

/-- `Task.name` (executor.py:148-149). -/
def Task.name (t : Task) : Str :=
  "libe_task".toList ++ '_' :: t.app.name ++ (match t.wid with
    | some (w + 1) => "_worker".toList ++ str (w + 1)
    | _ => []) ++ '_' :: str t.id

/-- A process: its environment variables, `Task.newid`, and of its executor `workerID`, `comm`, `gen_nprocs`, `gen_ngpus`. -/
structure Proc where
  environ : Str → Option Str
  next : Nat := 0
  wid : Option Nat := none
  comm : Option Nat := none
  procs : Option Nat := none
  gpus : Option Nat := none

/-- A launched task and the variables that its process got. -/
structure Launch where
  task : Task
  environ : Str → Option Str

structure World where
  proc : Nat → Proc
  pend : Nat → Option (Task × List (Str × Str)) := fun _ => none    -- in `submit`, with the variables still to set
  out : List Launch := []
  polls : List (Nat × Option Nat) := []                              -- who polled, and whose messages

inductive Step
  | start (w : Nat)                                   -- the worker is constructed
  | order (w : Nat) (procs gpus : Option Nat)         -- a work order begins
  | create (w : Nat) (a : App) (procs gpus : Option Nat) (env : List (Str × Str))
  | set (w : Nat)                                     -- one turn of the loop in `_implement_env`
  | launch (w : Nat)
  | poll (w : Nat)                                    -- `manager_poll`
  | drop (w : Nat)                                    -- `submit` raises an exception
  | stop (w : Nat)                                    -- the worker ends

/-- Python's `or` for numbers that may be `None`: 0 counts as missing. -/
def orElse (a b : Option Nat) : Option Nat := match a with
  | some (n + 1) => some (n + 1)
  | _ => b

def setProc (s : World) (i : Nat) (p : Proc) : World := { s with proc := fun j => if j = i then p else s.proc j }

def setPend (s : World) (w : Nat) (x : Option (Task × List (Str × Str))) : World := { s with pend := fun v => if v = w then x else s.pend v }

/-- One step.  `start`: `_set_executor` (worker.py:210-216, executor.py:679-682).  `order`: `_set_rset_team`, `_set_gen_procs_gpus` (worker.py:186-206,
mpi_executor.py:131-135), which does nothing if neither number is given.  `create`: `submit` up to the environment (mpi_executor.py:314-377; executor.py:768-788).  `set`:
`_implement_env` (executor.py:219-224).  `launch`: mpi_executor.py:151-159; executor.py:794-801.  `poll`: executor.py:544-558.  `stop`: worker.py:431-432. -/
def step (home : Nat → Nat) (s : World) : Step → World
  | .start w => let p := s.proc (home w); setProc s (home w) { p with wid := some w, comm := some w }
  | .order w np ng =>
    if np = none ∧ ng = none then s
    else let p := s.proc (home w); setProc s (home w) { p with procs := np, gpus := ng }
  | .create w a np ng env =>
    let p := s.proc (home w)
    if s.pend w = none ∧ (env.map (·.1)).Nodup then
      let t : Task := ⟨p.next, a, p.wid, env, orElse np p.procs, ng.or p.gpus, w⟩
      setPend (setProc s (home w) { p with next := p.next + 1 }) w (some (t, env))
    else s
  | .set w => match s.pend w with
    | some (t, (k, v) :: rest) =>
      let p := s.proc (home w)
      setPend (setProc s (home w) { p with environ := fun x => if x = k then some v else p.environ x }) w (some (t, rest))
    | _ => s
  | .launch w => match s.pend w with
    | some (t, []) => setPend { s with out := s.out ++ [⟨t, (s.proc (home w)).environ⟩] } w none
    | _ => s
  | .drop w => setPend s w none
  | .poll w => { s with polls := s.polls ++ [(w, (s.proc (home w)).comm)] }
  | .stop w => let p := s.proc (home w); setProc s (home w) { p with comm := none }

/-- A run from processes that have the variables `env0` and in which `n0` tasks were created before (`fork` copies `Task.newid`). -/
def run (home : Nat → Nat) (env0 : Str → Option Str) (n0 : Nat) (ss : List Step) : World :=
  ss.foldl (step home) { proc := fun _ => { environ := env0, next := n0 } }

end Verif.Launches
