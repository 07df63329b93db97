/-
The description of the platform: names, known platforms and `get_platform` (libensemble/resources/platforms.py), the cores and GPUs of a node
(libensemble/resources/resources.py, node_resources.py, gpu_detect.py), and the use of the description by the executor (libensemble/executors/mpi_executor.py,
mpi_runner.py) and the scheduler.

Simplifications: a value is a number, a text or a truth value; environment variables, output of commands and of `psutil` are inputs of the functions; the checks
of fields by pydantic are left out; of `model_dump` it is assumed that a field that was not given has its default, `None` in most cases.
-/
namespace Verif.Platform

/-- The fields of `Platform` (platforms.py:28-130). -/
inductive Field
  | mpiRunner | runnerName | cores | logical | gpus | tiles | setType | setName | fallback | matchSlots
deriving DecidableEq, Repr

/-- A value. -/
inductive Val
  | num (n : Nat)
  | text (s : String)
  | flag (b : Bool)
deriving DecidableEq, Repr

/-- A dictionary: no entry, the entry `None`, or a value. -/
abbrev Info := Field → Option (Option Val)

/-- The fields that a `Platform` was given values for. -/
abbrev Given := Field → Option Val

/-- `Platform(…)` dumped as part of `libE_specs` (libE.py:239-242): fields that were not given are there, with their default (platforms.py:35-117). -/
def Given.dumped (g : Given) : Info := fun f => match g f with
  | some v => some (some v)
  | none => if f = .matchSlots then some (some (.flag true)) else some none

/-- Dumped with `exclude_none=True` (ensemble.py:357). -/
def Given.tidy (g : Given) : Info := fun f => match g f with
  | some v => some (some v)
  | none => if f = .matchSlots then some (some (.flag true)) else none

/-- A dictionary with the values that are given, and nothing else. -/
def Given.plain (g : Given) : Info := fun f => (g f).map some

/-- The known platforms (platforms.py:133-214). -/
def aurora : Given
  | .mpiRunner => some (.text "mpich") | .runnerName => some (.text "mpiexec") | .cores => some (.num 104) | .logical => some (.num 208)
  | .gpus => some (.num 6) | .tiles => some (.num 2) | .setType => some (.text "env") | .setName => some (.text "ZE_AFFINITY_MASK")
  | .matchSlots => some (.flag true) | .fallback => none

@[inherit_doc aurora] def frontier : Given
  | .mpiRunner => some (.text "srun") | .cores => some (.num 64) | .logical => some (.num 128) | .gpus => some (.num 8)
  | .setType => some (.text "runner_default") | .fallback => some (.text "ROCR_VISIBLE_DEVICES") | .matchSlots => some (.flag false)
  | _ => none

@[inherit_doc aurora] def genericRocm : Given
  | .mpiRunner => some (.text "mpich") | .setType => some (.text "env") | .setName => some (.text "ROCR_VISIBLE_DEVICES") | .matchSlots => some (.flag true)
  | _ => none

@[inherit_doc aurora] def lumi : Given
  | .mpiRunner => some (.text "srun") | .cores => some (.num 64) | .logical => some (.num 128)
  | _ => none

@[inherit_doc aurora] def lumiG : Given
  | .mpiRunner => some (.text "srun") | .cores => some (.num 64) | .logical => some (.num 128) | .gpus => some (.num 8)
  | .setType => some (.text "env") | .setName => some (.text "ROCR_VISIBLE_DEVICES") | .matchSlots => some (.flag true)
  | _ => none

@[inherit_doc aurora] def perlmutter : Given
  | .mpiRunner => some (.text "srun")
  | _ => none

@[inherit_doc aurora] def perlmutterC : Given
  | .mpiRunner => some (.text "srun") | .cores => some (.num 128) | .logical => some (.num 256) | .gpus => some (.num 0)
  | _ => none

@[inherit_doc aurora] def perlmutterG : Given
  | .mpiRunner => some (.text "srun") | .cores => some (.num 64) | .logical => some (.num 128) | .gpus => some (.num 4)
  | .setType => some (.text "runner_default") | .fallback => some (.text "CUDA_VISIBLE_DEVICES") | .matchSlots => some (.flag false)
  | _ => none

@[inherit_doc aurora] def polaris : Given
  | .mpiRunner => some (.text "mpich") | .runnerName => some (.text "mpiexec") | .cores => some (.num 32) | .logical => some (.num 64)
  | .gpus => some (.num 4) | .setType => some (.text "runner_default") | .fallback => some (.text "CUDA_VISIBLE_DEVICES") | .matchSlots => some (.flag true)
  | _ => none

@[inherit_doc aurora] def summit : Given
  | .mpiRunner => some (.text "jsrun") | .cores => some (.num 42) | .logical => some (.num 168) | .gpus => some (.num 6)
  | .setType => some (.text "option_gpus_per_task") | .setName => some (.text "-g") | .matchSlots => some (.flag false)
  | _ => none

/-- `Known_platforms` (platforms.py:217-264). -/
def known : List (String × Given) :=
  [("aurora", aurora), ("generic_rocm", genericRocm), ("frontier", frontier), ("lumi", lumi), ("lumi_g", lumiG), ("perlmutter", perlmutter),
   ("perlmutter_c", perlmutterC), ("perlmutter_g", perlmutterG), ("polaris", polaris), ("summit", summit)]

/-! ### Names -/

/-- `detect_systems` (platforms.py:268-273). -/
def detectSystems : List (String × String) :=
  [("frontier.olcf.ornl.gov", "frontier"), ("hostmgmt.cm.aurora.alcf.anl.gov", "aurora"), ("hsn.cm.polaris.alcf.anl.gov", "polaris"), ("summit.olcf.ornl.gov", "summit")]

/-- What the process finds: the output of `hostname -d` (none: the command failed), `NERSC_HOST`, `SLURM_CLUSTER_NAME`, `SLURM_JOB_PARTITION`, and of the
partition whether it contains "gpu_" and ends with "-g". -/
structure Site where
  domain : Option String := none
  nersc : Option String := none
  cluster : Option String := none
  partition : Option String := none
  hasGpu : Bool := false
  endsG : Bool := false
deriving DecidableEq, Repr

/-- Whether a text that may be missing is true in Python. -/
def truthy (s : Option String) : Bool := match s with
  | some x => x != ""
  | none => false

/-- `known_envs` (platforms.py:276-297). -/
def knownEnvs (s : Site) : Option String :=
  let name := if s.nersc = some "perlmutter" then
      some (if truthy s.partition then (if s.hasGpu then "perlmutter_g" else "perlmutter_c") else "perlmutter")
    else none
  if s.cluster = some "lumi" then some (if truthy s.partition && s.endsG then "lumi_g" else "lumi") else name

/-- `known_system_detect` (platforms.py:300-313). -/
def detect (s : Site) : Option String := match s.domain.bind fun d => detectSystems.lookup d with
  | some n => some n
  | none => knownEnvs s

/-- `libE_specs.get("platform") or os.environ.get("LIBE_PLATFORM") or known_system_detect()` (platforms.py:327). -/
def nameOf (platform env : Option String) (s : Site) : Option String :=
  if truthy platform then platform else if truthy env then env else detect s

/-- `get_platform` (platforms.py:316-343). `specs`: the entry `platform_specs` (none: absent or empty); the error is `PlatformException`. -/
def getPlatform (platform env : Option String) (s : Site) (specs : Option Info) : Except Unit Info := match nameOf platform env s with
  | some n => match known.lookup n with
    | none => .error ()
    | some g => match specs with
      | none => .ok g.tidy
      | some i => .ok fun f => match i f with
        | some v => some v
        | none => g.tidy f
  | none => match specs with
    | none => .ok fun _ => none
    | some i => .ok fun f => match i f with
      | some (some v) => some (some v)
      | _ => none

/-- `info.get(f)`. -/
def Info.get (i : Info) (f : Field) : Option Val := (i f).getD none

/-- `info.get(f, default)`: an entry `None` is not replaced. -/
def Info.getDflt (i : Info) (f : Field) (v : Val) : Option Val := (i f).getD (some v)

/-- A number in the description. -/
def Info.num (i : Info) (f : Field) : Option Nat := match i.get f with
  | some (.num n) => some n
  | _ => none

/-! ### Cores and GPUs of a node -/

/-- Cores, hardware threads and GPUs; each may be unknown. -/
abbrev Counts := Option Nat × Option Nat × Option Nat

/-- `min(counter)`; nothing for an empty list (`ValueError`). -/
def least : List Nat → Option Nat
  | [] => none
  | [a] => some a
  | a :: l => (least l).map (min a)

/-- `LSB_HOSTS`: how often each host that is not a batch host is named (node_resources.py:60-62), in order of first appearance. `isBatch`: "batch" is in the name. -/
def slots (isBatch : String → Bool) (hosts : List String) : List Nat :=
  let nodes := hosts.filter fun h => !isBatch h
  nodes.eraseDups.map fun h => nodes.count h

/-- `zip(iter_list, iter_list)` (node_resources.py:66-67): pairs of neighbours. -/
def pairs {α : Type} : List α → List (α × α)
  | a :: b :: l => (a, b) :: pairs l
  | _ => []

/-- `LSB_MCPU_HOSTS` (node_resources.py:65-69): names and numbers in turn; `num`: the number that a word stands for. -/
def slotsShort (isBatch : String → Bool) (num : String → Nat) (ws : List String) : List Nat :=
  ((pairs ws).filter fun p => !isBatch p.1).map fun p => num p.2

/-- `get_num_gpus` (gpu_detect.py:71-82): the answer of the first method that has one. -/
def numGpus (answers : List (Option Nat)) : Option Nat := answers.findSome? id

/-- `_update_values` (node_resources.py:112-121): both numbers of cores are replaced if one is missing. -/
def updateValues (c u : Counts) : Counts :=
  let cpu := if c.1.isSome ∧ c.2.1.isSome then (c.1, c.2.1) else (u.1, u.2.1)
  (cpu.1, cpu.2, if c.2.2.isSome then c.2.2 else u.2.2)

/-- `_update_from_str` (node_resources.py:124-143): the words of the probe, each a number or not; both numbers of cores are only taken together. -/
def updateFromStr (c u : Counts) : Counts :=
  let cpu := if c.1.isSome ∧ c.2.1.isSome then (c.1, c.2.1) else if u.1.isSome ∧ u.2.1.isSome then (u.1, u.2.1) else (c.1, c.2.1)
  (cpu.1, cpu.2, if c.2.2.isSome then c.2.2 else if u.2.2.isSome then u.2.2 else c.2.2)

/-- `get_sub_node_resources` (node_resources.py:146-176). `env`: what the environment says about cores; `envGpus`: `SLURM_GPUS_ON_NODE`; `found`: what is detected here
or by the probe. -/
def subNode (env : Option (Nat × Nat)) (envGpus : Option Nat) (remote : Bool) (found : Counts) : Nat × Nat × Nat :=
  let c : Counts := (env.map (·.1), env.map (·.2), envGpus)
  let c' := if c.1.isSome ∧ c.2.1.isSome ∧ c.2.2.isSome then c else if remote then updateFromStr c found else updateValues c found
  (c'.1.getD 0, c'.2.1.getD 0, c'.2.2.getD 0)

/-- `x or y` for numbers that may be missing. -/
def nor (x y : Option Nat) : Option Nat := match x with
  | some n => if n = 0 then y else some n
  | none => y

/-- `_add_detected_info` (resources.py:257-270) for a pair of cores. -/
def addDetected (cores : Option Nat × Option Nat) (gpus : Option Nat) (d : Nat × Nat × Nat) : (Nat × Nat) × Nat :=
  let pick := fun (x : Option Nat) (y : Nat) => (nor x (some y)).getD y
  let cs := if cores.1.isNone ∨ cores.2.isNone then (pick cores.1 d.1, pick cores.2 d.2.1) else (cores.1.getD 0, cores.2.getD 0)
  (cs, pick gpus d.2.2)

/-- Cores, threads and GPUs per node in `GlobalResources.__init__` (resources.py:174-178, 220-228), without tiles. `ri`: `resource_info` with its entries
`cores_on_node` and `gpus_on_node`; `d`: the result of `get_sub_node_resources`. -/
def nodeCounts (riCores : Option (Option Nat × Option Nat)) (riGpus : Option Nat) (p : Info) (d : Nat × Nat × Nat) : (Nat × Nat) × Nat :=
  let cores := match riCores with
    | some c => c
    | none => (p.num .cores, p.num .logical)
  let gpus := nor riGpus (p.num .gpus)
  match cores.1, cores.2, gpus with
  | some a, some b, some g => ((a, b), g)
  | _, _, _ => addDetected cores gpus d

/-! ### Use of the description -/

/-- The runner of an `MPIExecutor` (mpi_executor.py:91-92): kind and name, empty texts left out. -/
structure Runner where
  kind : Option String := none
  name : Option String := none
deriving DecidableEq, Repr

/-- A text in the description. -/
def Info.text (i : Info) (f : Field) : Option String := match i.get f with
  | some (.text s) => some s
  | _ => none

/-- `add_platform_info` (mpi_executor.py:119-129); `variant`: the result of `get_MPI_variant`. -/
def Runner.add (r : Runner) (i : Info) (variant : Option String) : Runner :=
  let kind := r.kind <|> i.text .mpiRunner
  { kind := kind <|> variant, name := r.name <|> i.text .runnerName }

/-- The default of `run_command` (mpi_runner.py:33, 366, 391, 436, 459, 481, 504). -/
def defaultCommand (kind : String) : String :=
  if kind = "mpich" ∨ kind = "openmpi" then "mpirun" else if kind = "msmpi" ∨ kind = "custom" then "mpiexec" else kind

/-- The command of the runner object (`get_runner`, mpi_runner.py:14-31). -/
def Runner.command (r : Runner) : Option String := r.kind.map fun k => r.name.getD (defaultCommand k)

/-- How GPUs are assigned (mpi_runner.py:207-225): by the runner's own way, by an option, or by an environment variable; `dflt`: the runner's option. -/
inductive Way
  | runner
  | option (name : Option Val)
  | env (name : Option Val)
deriving DecidableEq, Repr

@[inherit_doc Way] def way (i : Info) (dflt : Val) : Way :=
  let t := i.getDflt .setType (.text "runner_default")
  if t = some (.text "runner_default") then .runner
  else if t = some (.text "option_gpus_per_node") ∨ t = some (.text "option_gpus_per_task") then .option (i.getDflt .setName dflt)
  else .env (i.getDflt .setName (.text "CUDA_VISIBLE_DEVICES"))

/-- `match_slots` of the scheduler (resources.py:249-255, scheduler.py:73): the user's option, else the platform's, else `True`. -/
def matchSlots (opt : Option Bool) (i : Info) : Option Val := match opt with
  | some b => some (.flag b)
  | none => i.getDflt .matchSlots (.flag true)

end Verif.Platform
