import Verif.Mpi.Model
/-
Model of the command line of an MPI task: reading of `extra_args` (`MPIRunner._get_parser`, `_parse_extra_args`,
`_rm_replicated_args`, executors/mpi_runner.py:47-91), the runners' templates (mpi_runner.py:365-521), the words added for GPUs
(107-155, 205-227), `get_mpi_specs` (279-362) and `form_command` (utils/launcher.py:14-25).

Conventions
* A command is a list of words.  The words of the user are lists of characters; numbers and host lists that libEnsemble
  writes are kept as such (`Word`), so the decimal notation is not modelled.
* `extra_args` is the list of its words (`str.split`); an empty list stands for None and for the empty string.
  Simplification: no quotation marks, so that `shlex.split` gives the same words.
* `argparse` is modelled as in Python 3.11: exact options, `option=value`, values attached to options of one letter,
  beginnings of options with one dash, negative numbers, `--`, and the option `-h` that it adds by itself.
  Simplifications: a number is an optional sign and digits; an option followed by `--` is an error.
* Not modelled: the environment variable with the list of GPUs, the words of the application.
-/
namespace Verif.Mpi

abbrev Str := List Char

/-- The three quantities of a layout. -/
inductive Q | procs | nodes | ppn
deriving DecidableEq, Repr

def Layout.get (l : Layout) : Q → Int
  | .procs => l.procs
  | .nodes => l.nodes
  | .ppn => l.ppn

/-- A word of a command. -/
inductive Word
  | lit (s : Str)
  | num (n : Int)                   -- a number written by libEnsemble
  | eqn (s : Str) (n : Int)         -- `option=number` written by libEnsemble
  | hosts (l : List Str)            -- host names joined by commas
  | auto                            -- name of the machine file written for this task (mpi_runner.py:431-433)
deriving DecidableEq, Repr

/-- The exceptions.  `exit` is the SystemExit raised by argparse. -/
inductive CErr
  | mpi (e : Err)
  | exit
  | noGpuOption        -- mpi_runner.py:139, 149-155
  | emptyFile          -- mpi_runner.py:437
deriving DecidableEq, Repr

/-! ### Reading of extra_args -/

def digitOf (c : Char) : Option Nat := if '0' ≤ c ∧ c ≤ '9' then some (c.toNat - '0'.toNat) else none

/-- A non-empty list of digits. -/
def readNat : Str → Option Nat
  | [] => none
  | cs => cs.foldl (fun acc c => match acc, digitOf c with | some n, some d => some (10 * n + d) | _, _ => none) (some 0)

/-- `int(word)`. -/
def readInt : Str → Option Int
  | '-' :: cs => (readNat cs).map fun n => -(n : Int)
  | '+' :: cs => (readNat cs).map fun n => (n : Int)
  | cs => (readNat cs).map fun n => (n : Int)

/-- What an option of the parser stands for. -/
inductive Opt
  | help
  | q (x : Q)
deriving DecidableEq, Repr

/-- How argparse takes a word: no option, an option it does not know, one it knows (with an attached value), or an ambiguous one. -/
inductive Cls
  | pos
  | skip
  | opt (o : Opt) (v : Option Str)
  | fail
deriving DecidableEq, Repr

abbrev Opts := List (Str × Opt)

def Opts.look (os : Opts) (w : Str) : Option Opt := (os.find? fun o => decide (o.1 = w)).map (·.2)

/-- A negative number (`_negative_number_matcher`; without decimals). -/
def negNum : Str → Bool
  | '-' :: cs => (readNat cs).isSome
  | _ => false

/-- The options that a word with one dash may mean (`ArgumentParser._get_option_tuples`). -/
def tuples (os : Opts) (w : Str) : List (Opt × Option Str) :=
  os.filterMap fun o => if o.1 = w.take 2 then some (o.2, some (w.drop 2)) else if w.isPrefixOf o.1 then some (o.2, none) else none

/-- `ArgumentParser._parse_optional` with `allow_abbrev=False`. -/
def classify (os : Opts) (w : Str) : Cls :=
  match w with
  | '-' :: rest =>
    match os.look w with
    | some o => .opt o none
    | none =>
      if rest = [] then .pos
      else
        match (if '=' ∈ w then os.look (w.takeWhile (· ≠ '=')) else none) with
        | some o => .opt o (some ((w.dropWhile (· ≠ '=')).drop 1))
        | none =>
          if rest.head? = some '-' then .skip
          else match tuples os w with
            | [] => if negNum w then .pos else .skip
            | [t] => .opt t.1 t.2
            | _ => .fail
  | _ => .pos

/-- The values found (`num_procs`, `num_nodes`, `procs_per_node`). -/
abbrev PArgs := Q → Option Int

def PArgs.set (p : PArgs) (x : Q) (n : Int) : PArgs := fun y => if y = x then some n else p y

/-- `parse_known_args` (mpi_runner.py:53): words that are no known option are passed over. -/
def scan (os : Opts) : List Str → PArgs → Except CErr PArgs
  | [], p => .ok p
  | w :: ws, p =>
    if w = ['-', '-'] then .ok p
    else match classify os w with
      | .pos => scan os ws p
      | .skip => scan os ws p
      | .fail => .error .exit
      | .opt .help _ => .error .exit
      | .opt (.q x) (some v) => match readInt v with
        | some n => scan os ws (p.set x n)
        | none => .error .exit
      | .opt (.q x) none => match ws with
        | [] => .error .exit
        | v :: ws =>
          if v = ['-', '-'] ∨ classify os v ≠ .pos then .error .exit
          else match readInt v with
            | some n => scan os ws (p.set x n)
            | none => .error .exit

/-! ### The runners -/

/-- What a placeholder of a template stands for; `env` is never filled. -/
inductive Key
  | q (x : Q)
  | hosts
  | mfile
  | env
deriving DecidableEq, Repr

/-- What `express_spec` produces. -/
inductive Express | hosts | mfile | nothing
deriving DecidableEq, Repr

/-- A runner: name of the program, recognized options, template (all templates end with `{extra_args}`), and attributes. -/
structure Runner where
  run : Str
  names : Q → List Str               -- arg_nprocs, arg_nnodes, arg_ppn
  parts : List (Str × Key)
  mfile : Bool := false              -- mfile_support
  rmRpn : Bool := false
  options : List Str := []           -- default_mpi_options
  express : Express := .hosts
  gpuType : Option Setting := none   -- default_gpu_arg_type
  gpuArg : Setting → Option Str := fun _ => none

def noName (q : Q) : List Str := match q with
  | .procs => ["--LIBE_NPROCS_ARG_EMPTY".toList]
  | .nodes => ["--LIBE_NNODES_ARG_EMPTY".toList]
  | .ppn => ["--LIBE_PPN_ARG_EMPTY".toList]

/-- mpi_runner.py:33-45. -/
def custom : Runner := { run := "mpiexec".toList, names := noName, parts := [] }

/-- mpi_runner.py:365-388. -/
def mpich : Runner :=
  { run := "mpirun".toList, mfile := true
    names := fun q => match q with | .procs => ["-n".toList, "-np".toList] | .nodes => noName .nodes | .ppn => ["--ppn".toList, "-ppn".toList]
    parts := [("--env".toList, .env), ("-machinefile".toList, .mfile), ("-hosts".toList, .hosts), ("-np".toList, .q .procs), ("--ppn".toList, .q .ppn)] }

/-- mpi_runner.py:391-439. -/
def openmpi : Runner :=
  { run := "mpirun".toList, mfile := true, express := .mfile
    names := fun q => match q with
      | .procs => ["-n".toList, "-np".toList, "-c".toList, "--n".toList] | .nodes => noName .nodes | .ppn => ["-npernode".toList]
    parts := [("-x".toList, .env), ("-machinefile".toList, .mfile), ("-host".toList, .hosts), ("-np".toList, .q .procs), ("-npernode".toList, .q .ppn)] }

/-- mpi_runner.py:442-462. -/
def aprun : Runner :=
  { run := "aprun".toList
    names := fun q => match q with | .procs => ["-n".toList] | .nodes => noName .nodes | .ppn => ["-N".toList]
    parts := [("-e".toList, .env), ("-L".toList, .hosts), ("-n".toList, .q .procs), ("-N".toList, .q .ppn)] }

/-- mpi_runner.py:465-484. -/
def msmpi : Runner :=
  { run := "mpiexec".toList
    names := fun q => match q with | .procs => ["-n".toList, "-np".toList] | .nodes => noName .nodes | .ppn => ["-cores".toList]
    parts := [("-env".toList, .env), ("-n".toList, .q .procs), ("-cores".toList, .q .ppn)] }

/-- mpi_runner.py:487-507. -/
def srun : Runner :=
  { run := "srun".toList, options := ["--exact".toList], gpuType := some .perTask
    gpuArg := fun s => match s with | .perTask => some "--gpus-per-task".toList | .perNode => some "--gpus-per-node".toList | .env => none
    names := fun q => match q with
      | .procs => ["-n".toList, "--ntasks".toList] | .nodes => ["-N".toList, "--nodes".toList] | .ppn => ["--ntasks-per-node".toList]
    parts := [("-w".toList, .hosts), ("--ntasks".toList, .q .procs), ("--nodes".toList, .q .nodes), ("--ntasks-per-node".toList, .q .ppn)] }

/-- mpi_runner.py:510-521. -/
def jsrun : Runner :=
  { run := "jsrun".toList, rmRpn := true, express := .nothing, gpuType := some .perTask
    gpuArg := fun s => match s with | .perTask => some "-g".toList | _ => none
    names := fun q => match q with | .procs => ["--np".toList, "-n".toList] | .nodes => noName .nodes | .ppn => ["-r".toList]
    parts := [("-n".toList, .q .procs), ("-r".toList, .q .ppn)] }

/-- `MPIRunner.get_runner` (mpi_runner.py:14-31): the runners there are; the name of the program can be replaced. -/
def runners : List Runner := [mpich, openmpi, aprun, srun, jsrun, msmpi, custom]

/-- The options of the parser (mpi_runner.py:47-54), with those argparse adds. -/
def Runner.opts (r : Runner) : Opts :=
  [("-h".toList, .help), ("--help".toList, .help)] ++ (r.names .procs).map (·, .q .procs) ++ (r.names .nodes).map (·, .q .nodes) ++
    (r.names .ppn).map (·, .q .ppn)

/-- `_parse_extra_args` (mpi_runner.py:56-73), called when `extra_args` is not empty. -/
def parseExtra (r : Runner) (extra : List Str) : Except CErr PArgs := scan r.opts extra (fun _ => none)

/-! ### GPUs -/

/-- The entries of `platform_info` read here: `gpu_setting_type` (none: absent or "runner_default") and `gpu_setting_name`. -/
structure Plat where
  type : Option Setting := none
  name : Option Str := none

/-- The kind of setting used (mpi_runner.py:133-144, 206, 211-224). -/
def settingOf (r : Runner) (p : Plat) : Setting := match p.type with
  | some s => s
  | none => r.gpuType.getD .env

/-- `_set_gpu_cli_option` (mpi_runner.py:108-121): the words of the option. -/
def gpuOption (name : Str) (v : Int) : List Word :=
  if name.getLast? = some '=' then [.eqn name v] else [.lit name, .num v]

/-- The name of the option: that of the platform if the platform chooses the setting, else the default `d` of the runner. -/
def Plat.option (p : Plat) (d : Str) : Str := match p.type with
  | some _ => p.name.getD d
  | none => d

/-- The words added to `extra_args` (mpi_runner.py:133-144, 211-224).  The default of the runner is looked up even if the
platform gives a name (line 218: the second argument of `dict.get`). -/
def gpuWords (r : Runner) (p : Plat) (v : Int) : Except CErr (List Word) :=
  match settingOf r p with
  | .env => .ok []
  | s => match r.gpuArg s with
    | none => .error .noGpuOption
    | some d => .ok (gpuOption (p.option d) v)

/-- The words for a setting, if there is one. -/
def gpuPart (r : Runner) (p : Plat) : Option Int → Except CErr (List Word)
  | none => .ok []
  | some v => gpuWords r p v

/-! ### The command -/

/-- Arguments of `submit` (mpi_executor.py:186-207) that reach `get_mpi_specs`. -/
structure Request where
  np : Option Int := none
  nn : Option Int := none
  ppn : Option Int := none
  ng : Option Int := none
  machinefile : Option Str := none
  extra : List Str := []
  auto : Bool := false
  mat : Bool := false

def Request.get (a : Request) : Q → Option Int
  | .procs => a.np
  | .nodes => a.nn
  | .ppn => a.ppn

/-- The values used: the arguments, else those found in `extra_args` (mpi_runner.py:66-72). -/
def merged (a : Request) (pa : PArgs) (x : Q) : Option Int := match a.get x with | some v => some v | none => pa x

/-- The machine file of the user, if the runner supports it (mpi_runner.py:337-340). -/
def userFile (r : Runner) (a : Request) : Option Str := if r.mfile then a.machinefile else none

/-- `self.rm_rpn and ppn is None and nnodes is None` (mpi_runner.py:334). -/
def dropPpn (r : Runner) (res : Option Avail) (st : Setting) (a : Request) (pa : PArgs) : Bool :=
  r.rmRpn && match prepare res st (merged a pa .procs) (merged a pa .nodes) (merged a pa .ppn) a.ng a.auto a.mat with
    | .ok (_, nn, ppn, _, _) => nn.isNone && ppn.isNone
    | .error _ => false

/-- What fills the template (the dictionary of mpi_runner.py:355-362). -/
structure Dict where
  q : Q → Option Int
  hosts : Option (List Str) := none
  mfile : Option Word := none
  extra : List Word

/-- The word for a placeholder. -/
def Dict.word (d : Dict) : Key → Option Word
  | .q x => (d.q x).map .num
  | .hosts => d.hosts.map .hosts
  | .mfile => d.mfile
  | .env => none

/-- A part of a template filled in (`fill`, utils/launcher.py:18-23). -/
def Dict.words (d : Dict) (p : Str × Key) : List Word := match d.word p.2 with
  | some w => [.lit p.1, w]
  | none => []

/-- `form_command` (utils/launcher.py:14-25): parts without a value are dropped. -/
def formCommand (r : Runner) (d : Dict) : List Word :=
  .lit r.run :: r.parts.flatMap d.words ++ d.extra

/-- Numbers left in the dictionary: those of the layout unless found in `extra_args` (`_rm_replicated_args`,
mpi_runner.py:77-89, 349-353). -/
def remaining (sp : Specs) (pa : PArgs) (drop : Bool) (x : Q) : Option Int :=
  if (pa x).isSome then none
  else if x = .ppn ∧ drop = true then none
  else sp.layout.map (·.get x)

/-- Host list and machine file (mpi_runner.py:336-346); `nodes` is `local_nodelist`. -/
def places (r : Runner) (nodes : Option (List Str)) (a : Request) (sp : Specs) : Except CErr (Option (List Str) × Option Word) :=
  match userFile r a, nodes, sp.layout with
  | none, some ns, some l => match r.express with
    | .hosts => .ok (some (hosts ns l), none)
    | .mfile => if machinefile ns l = [] then .error .emptyFile else .ok (none, some .auto)
    | .nothing => .ok (none, none)
  | f, _, _ => .ok (none, f.map .lit)

/-- The command and the numbers it was made from: `get_mpi_specs` (mpi_runner.py:279-362) and `form_command`
(mpi_executor.py:348).  `res` are the worker's resources with the list of its nodes. -/
def command (r : Runner) (res : Option (Avail × List Str)) (p : Plat) (a : Request) : Except CErr (List Word × Specs) :=
  match parseExtra r a.extra with
  | .error e => .error e
  | .ok pa =>
    match mpiSpecs (res.map (·.1)) (settingOf r p) (merged a pa .procs) (merged a pa .nodes) (merged a pa .ppn) a.ng (userFile r a).isSome a.auto a.mat with
    | .error e => .error (.mpi e)
    | .ok sp =>
      match gpuPart r p sp.setting with
      | .error e => .error e
      | .ok gw =>
        match places r (res.map (·.2)) a sp with
        | .error e => .error e
        | .ok (hs, mf) =>
          .ok (formCommand r
            { q := remaining sp pa (dropPpn r (res.map (·.1)) (settingOf r p) a pa), hosts := hs, mfile := mf
              extra := a.extra.map .lit ++ gw ++ r.options.map .lit }, sp)

end Verif.Mpi
