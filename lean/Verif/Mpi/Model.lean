import Verif.Resources.Model
/-
Model of `libensemble/resources/mpi_resources.py` (task_partition, get_resources, get_hostlist, create_machinefile), of
the part of `WorkerResources` they read (worker_resources.py:299-382), and of the numbers computed by
`MPIRunner.get_mpi_specs` (executors/mpi_runner.py:108-362).

Conventions
* Arguments given by the user are `Option Int`; Python treats 0 like an omitted value wherever it writes `if num_procs`.
  Strings (`int("4")`) are not modelled.
* `//` and `%` of Python are `Int.fdiv` and `Int.fmod`.
* Exceptions are values of `Except Err`.
-/
namespace Verif.Mpi
open Verif.Res

/-- The exceptions raised. -/
inductive Err where
  | needMore          -- mpi_resources.py:116
  | unequal           -- mpi_resources.py:126
  | noNodes           -- mpi_resources.py:158
  | noneSlots         -- TypeError: `slot_count` is None (uneven slots)
  | noCores           -- mpi_resources.py:178-182
  | manyNodes         -- mpi_resources.py:203-206
  | nodeCores         -- mpi_resources.py:209-213
  | workerCores       -- mpi_resources.py:215-219
  | total             -- mpi_resources.py:221-225
  | zeroDivision      -- ZeroDivisionError of Python
  | mutuallyExclusive -- mpi_runner.py:317
  | noProcs           -- mpi_runner.py:201
  | noResources       -- AttributeError: GPUs asked for, resource detection off
  | notMatching       -- mpi_runner.py:125
  | notEven           -- mpi_runner.py:110
deriving DecidableEq, Repr

/-- `if x`: a value is there and is not zero. -/
def given : Option Int → Option Int
  | some a => if a = 0 then none else some a
  | none => none

/-- A run configuration: processes, nodes, processes per node. -/
structure Layout where
  procs : Int
  nodes : Int
  ppn : Int
deriving DecidableEq, Repr

/-- The final check of `task_partition` (mpi_resources.py:126). -/
def checked (a b c : Int) : Except Err Layout := if a = b * c then .ok ⟨a, b, c⟩ else .error .unequal

/-- `task_partition` (mpi_resources.py:97-127) without machinefile. -/
def partition (np nn ppn : Option Int) : Except Err Layout :=
  match given np, given nn, given ppn with
  | none, some b, some c => checked (b * c) b c
  | none, _, _ => .error .needMore
  | some a, none, p => checked a (a.fdiv (p.getD a)) (p.getD a)
  | some a, some b, none => checked a b (a.fdiv b)
  | some a, some b, some c => checked a b c

/-- `task_partition` with machinefile: everything else is ignored (mpi_resources.py:109-113). -/
def taskPartition (np nn ppn : Option Int) (machinefile : Bool) : Except Err (Option Layout) :=
  if machinefile then .ok none else (partition np nn ppn).map some

/-- What `get_resources` reads from the worker's resources. -/
structure Avail where
  nodes : Nat                -- `local_node_count`
  slotCount : Option Nat     -- `slot_count`, `none` if not `even_slots`
  matching : Bool            -- `matching_slots`
  rsets : Nat                -- `_max_rsets_per_node` (mpi_resources.py:130-135)
  cores : Nat                -- logical or physical cores per node (mpi_resources.py:161-163)
  enforce : Bool             -- `enforce_worker_core_bounds`
  procsPer : Nat             -- `procs_per_rset_per_node` (rset_resources.py:79-87)
  gpusPer : Nat              -- `gpus_per_rset_per_node`
  gpus : Bool                -- `doihave_gpus()`
deriving DecidableEq, Repr

/-- `cores_avail_per_node_per_worker` (mpi_resources.py:169). -/
def Avail.coresPer (w : Avail) (slots : Nat) : Nat := w.cores / w.rsets * slots

/-- The values filled in before the check (mpi_resources.py:177-198). -/
def fill (w : Avail) (per : Nat) (np nn ppn : Option Int) : Except Err (Option Int × Option Int × Option Int) :=
  match given np, given nn, given ppn with
  | none, nn', none =>
    if per > 0 then .ok (np, some (nn'.getD w.nodes), some per) else .error .noCores
  | some a, none, none => .ok (np, some (if a ≤ per then 1 else w.nodes), ppn)
  | none, none, some _ => .ok (np, some w.nodes, ppn)
  | _, _, _ => .ok (np, nn, ppn)

/-- The checks against the resources (mpi_resources.py:203-225). -/
def bounds (w : Avail) (per : Nat) (l : Layout) : Except Err Layout :=
  if ¬ l.nodes ≤ w.nodes then .error .manyNodes
  else if w.enforce = true ∧ ¬ l.ppn ≤ w.cores then .error .nodeCores
  else if w.enforce = true ∧ ¬ l.ppn ≤ per then .error .workerCores
  else if w.enforce = true ∧ ¬ l.procs ≤ w.cores * w.nodes then .error .total
  else .ok l

/-- `get_resources` (mpi_resources.py:138-233).  Line 169 multiplies by `slot_count`, which is None for uneven slots, so the
check of `even_slots` (172-175) is not reached: a TypeError is raised before it. -/
def getResources (w : Avail) (np nn ppn : Option Int) : Except Err Layout :=
  if w.nodes = 0 then .error .noNodes
  else match w.slotCount with
    | none => .error .noneSlots
    | some s =>
      match fill w (w.coresPer s) np nn ppn with
      | .error e => .error e
      | .ok (np, nn, ppn) =>
        match partition np nn ppn with
        | .error e => .error e
        | .ok l => bounds w (w.coresPer s) l

/-- Python slice `a[:n]`. -/
def upto {α} (a : List α) (n : Int) : List α := if n < 0 then a.take (a.length - n.natAbs) else a.take n.toNat

/-- `get_hostlist` (mpi_resources.py:266-273). -/
def hosts {α} (local_nodelist : List α) (l : Layout) : List α := upto local_nodelist l.nodes

/-- The lines written by `create_machinefile` (mpi_resources.py:257-259); a string times a negative number is empty. -/
def machinefile {α} (local_nodelist : List α) (l : Layout) : List α :=
  (upto local_nodelist l.nodes).flatMap (fun x => List.replicate l.ppn.toNat x)

/-! ### The worker's resources -/

/-- `OrderedDict.fromkeys`: each element once, in the order of first occurrence. -/
def firsts {α} [DecidableEq α] : List α → List α
  | [] => []
  | x :: xs => x :: (firsts xs).filter (fun y => y ≠ x)

/-- `local_nodelist` of `get_local_nodelist` (worker_resources.py:360-364). -/
def localNodes {α} [DecidableEq α] (split : List (List α)) (team : List Nat) : List α :=
  firsts (team.flatMap (fun i => (split[i]?).getD []))

/-- `set_slot_count` (worker_resources.py:329-350): the number of slots if all nodes have the same number. -/
def slotCount {α} [DecidableEq α] (split : List (List α)) (rpn : Nat) (team : List Nat) : Option Nat :=
  match localNodes split team with
  | [] => none
  | x :: xs => if xs.all (fun y => (slotsOn split rpn team y).length == (slotsOn split rpn team x).length)
      then some (slotsOn split rpn team x).length else none

/-- `matching_slots` (worker_resources.py:333-347). -/
def matchingSlots {α} [DecidableEq α] (split : List (List α)) (rpn : Nat) (team : List Nat) : Bool :=
  match localNodes split team with
  | [] => true
  | x :: xs => xs.all (fun y => slotsOn split rpn team y == slotsOn split rpn team x)

/-- `_max_rsets_per_node` (mpi_resources.py:130-135). -/
def maxRsets (loc : List Nat) (team : List Nat) : Nat := team.foldl (fun m i => max m ((loc[i]?).getD 0)) 0

/-- `procs_per_rset_per_node` (rset_resources.py:78-87). -/
def procsPerRset (phys rpn : Nat) : Nat :=
  if phys / rpn = 0 then phys * (rpn / phys + (if rpn % phys > 0 then 1 else 0)) else phys / rpn

/-- The machine and the settings. -/
structure Machine (α : Type) where
  nodes : List α
  nrsets : Nat
  phys : Nat
  logical : Nat
  gpn : Nat
  gpg : Option Nat
  enforce : Bool

/-- Resources of a worker with the given non-empty team (worker_resources.py:299-382); `none` for no layout. -/
def availOf {α} [DecidableEq α] (m : Machine α) (team : List Nat) (hyper : Bool) : Option Avail :=
  match splitList m.nrsets m.nodes with
  | none => none
  | some (split, loc) =>
    let rpn := rsetsOnNode m.nrsets m.nodes.length
    some {
      nodes := (localNodes split team).length
      slotCount := slotCount split rpn team
      matching := matchingSlots split rpn team
      rsets := maxRsets loc team
      cores := if hyper then m.logical else m.phys
      enforce := m.enforce
      procsPer := procsPerRset m.phys rpn
      gpusPer := gpusPerRset m.gpn rpn
      gpus := match team with
        | [] => false
        | i :: _ => (((groupList split m.gpn m.gpg)[i]?).map (·.gpu)).getD false }

/-! ### The runner: nodes, rounding, GPUs -/

/-- `_get_min_nodes` (mpi_runner.py:229-256). -/
def minNodes (res : Option Avail) (np ppn nn ng : Option Int) : Except Err (Option Int) :=
  match nn with
  | some b => .ok (some b)
  | none =>
    if given ppn ≠ none then .ok none
    else match res with
      | none => .ok none
      | some w => match w.slotCount with
        | none => .error .noneSlots
        | some s =>
          if given np = none ∧ ng = none then .ok none
          else if given np ≠ none ∧ s * w.procsPer = 0 then .error .zeroDivision
          else if given ng ≠ none ∧ s * w.gpusPer = 0 then .error .zeroDivision
          else
            let p : Int := match given np with
              | some a => (a + (s * w.procsPer : Nat) - 1).fdiv (s * w.procsPer : Nat)
              | none => 1
            let g : Int := match given ng with
              | some a => (a + (s * w.gpusPer : Nat) - 1).fdiv (s * w.gpusPer : Nat)
              | none => 1
            let n : Int := min (max p g) w.nodes
            .ok (some (match given np with | some a => min n a | none => n))

/-- `adjust_resource` (mpi_runner.py:261-271). -/
def adjust (w : Avail) (nn : Option Int) (units : Option Int) (per : Nat) : Except Err (Option Int) :=
  match units, given nn with
  | some u, some b =>
    if u.fmod b = 0 then .ok (some u)
    else match w.slotCount with
      | none => .error .noneSlots
      | some s => .ok (some (if u + (b - u.fmod b) ≤ s * per * b then u + (b - u.fmod b) else u))
  | u, _ => .ok u

/-- `_adjust_procs` for one kind of unit: nothing without resource detection (mpi_runner.py:273-277). -/
def adjust' (res : Option Avail) (nn units : Option Int) (per : Avail → Nat) : Except Err (Option Int) :=
  match res with
  | none => .ok units
  | some w => adjust w nn units (per w)

/-- How the GPUs are passed on: an option with the number per node, an option with the number per task, or an environment
variable with the list of GPUs (mpi_runner.py:133-144, 212-224). -/
inductive Setting where
  | perNode
  | perTask
  | env
deriving DecidableEq, Repr

/-- Result of `get_mpi_specs`: the layout (none with a machinefile) and the number given with the GPU setting. -/
structure Specs where
  layout : Option Layout
  gpusPerNode : Option Int   -- `task.ngpus_req`
  setting : Option Int       -- value of the option, or limit of the list of GPUs
deriving DecidableEq, Repr

/-- The GPU part of `_assign_gpus` (mpi_runner.py:205-226): value of the setting. -/
def gpuSetting (w : Avail) (st : Setting) (gpn ppn : Int) : Except Err Int :=
  match st with
  | .perNode => if w.slotCount = none then .error .notEven else .ok gpn
  | .perTask => if ppn = 0 then .error .zeroDivision else if w.slotCount = none then .error .notEven else .ok (gpn.fdiv ppn)
  | .env => if w.matching then .ok gpn else .error .notMatching

/-- Number of nodes used by `_assign_gpus` (mpi_runner.py:180-187). -/
def gpuNodes (w : Avail) (np nn ppn : Option Int) : Int :=
  match nn with
  | some b => b
  | none => match given np, given ppn with
    | some a, some c => a.fdiv c
    | some a, none => min a w.nodes
    | none, _ => w.nodes

/-- GPUs per node available to the worker (mpi_runner.py:174-178). -/
def gpusAvail (w : Avail) : Except Err Int :=
  if w.gpus then match w.slotCount with
    | none => .error .noneSlots
    | some s => .ok (s * w.gpusPer : Nat)
  else .ok 0

/-- GPUs per node granted (mpi_runner.py:189-195). -/
def gpusGranted (avail : Int) (ng : Option Int) (b : Int) : Except Err Int :=
  match ng with
  | none => .ok avail
  | some g => if b = 0 then .error .zeroDivision else .ok (min (g.fdiv b) avail)

/-- `_assign_gpus` (mpi_runner.py:157-227): new numbers and the GPU setting.  `ppn` is None in line 208 only with
`num_procs` given (otherwise `match_procs_to_gpus` has set it). -/
def assignGpus (w : Avail) (st : Setting) (np nn ppn ng : Option Int) (mat : Bool) :
    Except Err (Option Int × Option Int × Option Int × Int × Option Int) :=
  match gpusAvail w with
  | .error e => .error e
  | .ok avail =>
    let b := gpuNodes w np nn ppn
    match gpusGranted avail ng b with
    | .error e => .error e
    | .ok g =>
      if mat = true ∧ ¬ b * g > 0 then .error .noProcs
      else
        let np := if mat then some (b * g) else np
        let ppn := if mat then some g else ppn
        if ng = some 0 then .ok (np, some b, ppn, g, none)
        else
          match ppn, np with
          | some c, _ => match gpuSetting w st g c with
            | .error e => .error e
            | .ok v => .ok (np, some b, some c, g, some v)
          | none, some a =>
            if b = 0 then .error .zeroDivision
            else match gpuSetting w st g (a.fdiv b) with
              | .error e => .error e
              | .ok v => .ok (np, some b, some (a.fdiv b), g, some v)
          | none, none => .error .zeroDivision

/-- The numbers handed to `get_resources` or `task_partition` by `get_mpi_specs` (mpi_runner.py:318-333). -/
def prepare (res : Option Avail) (st : Setting) (np nn ppn ng : Option Int) (auto mat : Bool) :
    Except Err (Option Int × Option Int × Option Int × Option Int × Option Int) :=
  if mat = true ∧ (given np ≠ none ∨ given ppn ≠ none) then .error .mutuallyExclusive
  else match minNodes res np ppn nn ng with
  | .error e => .error e
  | .ok nn =>
    match adjust' res nn ng (·.gpusPer) with
    | .error e => .error e
    | .ok ng' =>
      match adjust' res nn np (·.procsPer) with
      | .error e => .error e
      | .ok np' =>
        if auto = true ∨ ng' ≠ none then
          match res with
          | none => .error .noResources
          | some w =>
            match assignGpus w st np' nn ppn ng' (mat || (given np = none && given ppn = none)) with
            | .error e => .error e
            | .ok (np, nn, ppn, g, v) => .ok (np, nn, ppn, some g, v)
        else .ok (np', nn, ppn, none, none)

/-- `get_mpi_specs` (mpi_runner.py:279-362), numbers only: values found in `extra_args` have been merged into the arguments
by the caller of this definition (lines 310-313), and the removal of repeated options for the command line (348-353) is not
modelled. -/
def mpiSpecs (res : Option Avail) (st : Setting) (np nn ppn ng : Option Int) (machinefile auto mat : Bool) : Except Err Specs :=
  match prepare res st np nn ppn ng auto mat with
  | .error e => .error e
  | .ok (np, nn, ppn, g, v) =>
    match machinefile, res with
    | false, some w => match getResources w np nn ppn with
      | .error e => .error e
      | .ok l => .ok ⟨some l, g, v⟩
    | _, _ => match taskPartition np nn ppn machinefile with
      | .error e => .error e
      | .ok l => .ok ⟨l, g, v⟩

end Verif.Mpi
