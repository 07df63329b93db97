/-
From the command line and the arguments of `Ensemble` to the run: `parse_args` (libensemble/tools/parse_args.py), the checks of `LibeSpecs`
(libensemble/utils/validators.py, utils/specs_checkers.py), `Ensemble` (libensemble/ensemble.py) and the choice of the team in libensemble/libE.py.

Simplifications: of the fields of `LibeSpecs` the model names `comms`, `nworkers`, `workers`, `num_resource_sets`, `disable_resource_manager` and
`workerID`; all others are integers under their names, without checks of their types; a dictionary never has the value `None`; fields `ip`, `port`,
`authkey`, `worker_cmd` and `mpi_comm` are left out (for the first four see Verif/Tcp); so are `dry_run`, the working directory and the settings other than
`libE_specs`. What pydantic does is assumed: `LibeSpecs(**d)` refuses unknown names and communicators, runs `default_comms` before and the check of the workers after the
fields are set; an assignment to a field, and the call of `libE` with an object, run the check of the workers again; a refused assignment leaves the object as
it was; `model_dump` with `exclude_defaults` leaves out values that equal the default. Importing mpi4py succeeds.
-/
namespace Verif.Settings

/-- The values of `comms` (specs.py:327-332); other texts are refused (`check_valid_comms_type`, validators.py:62-64). -/
inductive Comms
  | mpi | loc | threads | tcp
deriving DecidableEq, Repr

/-- Errors: `overwrite` and `changed` (ensemble.py:24-25), `workers`: "nworkers must be specified if comms is 'local'" (ensemble.py:309), `refused`: pydantic's
`ValidationError`, `kind`: `TypeError`, `AttributeError`, `KeyError` or `UnboundLocalError`. -/
inductive Err
  | overwrite | changed | workers | refused | kind
deriving DecidableEq, Repr

/-- Where the process runs: whether environment variables tell of more than one MPI process (`detect_comms_env`, validators.py:25-35), its rank and the size of
`COMM_WORLD`. -/
structure Env where
  mpiEnv : Bool
  rank : Nat
  size : Nat

/-- A dictionary of settings; `none`: the key is absent. -/
structure Dict where
  comms : Option Comms := none
  nworkers : Option Int := none
  hosts : Option (List String) := none
  rsets : Option Int := none
  disableRM : Option Bool := none
  workerID : Option Int := none
  rest : List (String × Int) := []
deriving DecidableEq, Repr

/-- A `LibeSpecs` object; the defaults are those of specs.py:327, 334, 539, 573 and 579; `rest`: the other fields that were set, the newest first. -/
structure Obj where
  comms : Comms := .mpi
  nworkers : Int := 0
  hosts : List String := []
  rsets : Int := 0
  disableRM : Bool := false
  workerID : Option Int := none
  rest : List (String × Int) := []
deriving DecidableEq, Repr

/-- `a or b` for an integer that may be `None`. -/
def por (a : Option Int) (b : Int) : Int := match a with
  | none => b
  | some x => if x = 0 then b else x

/-! ### The command line -/

/-- The choices of `--comms` (parse_args.py:9-15). -/
inductive Choice
  | loc | threads | tcp | ssh | client | mpi
deriving DecidableEq, Repr

/-- The options (parse_args.py:9-32) that this model looks at; `server`: whether `--server` is given. -/
structure Args where
  comms : Option Choice := none
  nworkers : Option Int := none
  nsim : Option Int := none
  nres : Option Int := none
  hosts : Option (List String) := none
  workerID : Option Int := none
  server : Bool := false
deriving DecidableEq, Repr

/-- What `parse_args` returns (parse_args.py:226-238, 258). -/
structure Parsed where
  nworkers : Int
  isManager : Bool
  specs : Dict
deriving DecidableEq, Repr

/-- `num_resource_sets` in `_mpi_parse_args` and `_local_parse_args` (parse_args.py:61-68, 78-86). -/
def setsOf (a : Args) : Option Int := match a.nres with
  | some r => some r
  | none => a.nsim

/-- `mpi_init` (parse_args.py:42-51): it does not look at the communicator that it is given. -/
def mpiInit (e : Env) : Int × Bool := ((e.size : Int) - 1, e.rank == 0)

/-- `_mpi_parse_args` (parse_args.py:54-70). -/
def mpiArgs (e : Env) (a : Args) : Parsed :=
  { nworkers := (mpiInit e).1, isManager := (mpiInit e).2, specs := { comms := some .mpi, rsets := setsOf a } }

/-- `_local_parse_args` (parse_args.py:73-91), also for threads. -/
def localArgs (c : Comms) (a : Args) : Parsed :=
  let n := match a.nsim with
    | some k => some (por a.nworkers (k + 1))
    | none => a.nworkers
  { nworkers := por n 4, isManager := true, specs := { comms := some c, nworkers := some (por n 4), rsets := setsOf a } }

/-- `_tcp_parse_args` (parse_args.py:94-112). -/
def tcpArgs (a : Args) : Parsed :=
  { nworkers := por a.nworkers 4, isManager := true, specs := { comms := some .tcp, nworkers := some (por a.nworkers 4) } }

/-- `_ssh_parse_args` (parse_args.py:115-140): `len(None)` without hosts. -/
def sshArgs (a : Args) : Except Err Parsed := match a.hosts with
  | none => .error .kind
  | some l => .ok { nworkers := l.length, isManager := true, specs := { comms := some .tcp, hosts := some l } }

/-- `_client_parse_args` (parse_args.py:143-155): without `--server`, `None` is unpacked. A missing `--workerID` gives the value `None`, the default. -/
def clientArgs (a : Args) : Except Err Parsed :=
  if a.server then
    .ok { nworkers := por a.nworkers 4, isManager := false,
          specs := { comms := some .tcp, nworkers := some (por a.nworkers 4), workerID := a.workerID } }
  else .error .kind

/-- The front end that is taken (parse_args.py:242-257). -/
def choice (a : Args) : Choice := match a.comms with
  | some c => c
  | none => if a.nworkers.isSome then .loc else .mpi

/-- `parse_args` (parse_args.py:158-258). -/
def parse (e : Env) (a : Args) : Except Err Parsed := match choice a with
  | .mpi => .ok (mpiArgs e a)
  | .loc => .ok (localArgs .loc a)
  | .threads => .ok (localArgs .threads a)
  | .tcp => .ok (tcpArgs a)
  | .ssh => sshArgs a
  | .client => clientArgs a

/-! ### Objects of settings -/

/-- `_check_any_workers_and_disable_rm_if_tcp` (specs_checkers.py:66-76). -/
def check (o : Obj) : Except Err Obj :=
  if (o.comms = .loc ∨ o.comms = .tcp) ∧ o.nworkers ≠ 0 ∧ o.nworkers < 1 then .error .refused
  else if o.comms = .tcp ∧ o.nworkers = 0 ∧ o.hosts = [] then .error .refused
  else .ok (if o.comms = .tcp then { o with disableRM := true } else o)

/-- `default_comms` (validators.py:38-44). -/
def defaultComms (e : Env) (d : Dict) : Comms := match d.comms with
  | some c => c
  | none => if d.nworkers.isSome then (if e.mpiEnv then .mpi else .loc) else .mpi

/-- The names of further fields that `LibeSpecs` has (specs.py:338-660; the model uses a few of them). -/
def fields : List String := ["save_every_k_sims", "save_every_k_gens", "final_gen_send", "safe_mode", "gen_on_manager"]

/-- `LibeSpecs(**d)`: `extra="forbid"` (pydantic_bindings.py:32), `default_comms` and the check of the workers (pydantic_bindings.py:93-95). -/
def build (e : Env) (d : Dict) : Except Err Obj :=
  if d.rest.all fun p => fields.contains p.1 then
    check { comms := defaultComms e d, nworkers := d.nworkers.getD 0, hosts := d.hosts.getD [], rsets := d.rsets.getD 0,
            disableRM := d.disableRM.getD false, workerID := d.workerID, rest := d.rest }
  else .error .refused

/-- `o.__dict__.update(**d)` (ensemble.py:322, 363): no check is run. -/
def Obj.update (o : Obj) (d : Dict) : Obj :=
  { comms := d.comms.getD o.comms, nworkers := d.nworkers.getD o.nworkers, hosts := d.hosts.getD o.hosts, rsets := d.rsets.getD o.rsets,
    disableRM := d.disableRM.getD o.disableRM, workerID := d.workerID <|> o.workerID, rest := d.rest ++ o.rest }

/-- `if x equals the default then leave it out`. -/
def differ {α : Type} [DecidableEq α] (x dflt : α) : Option α := if x = dflt then none else some x

/-- `specs_dump(o, exclude_none=True, exclude_defaults=True)` (ensemble.py:355, misc.py:51-52); the further fields of the model have the default 0 or `False`. -/
def Obj.dump (o : Obj) : Dict :=
  { comms := differ o.comms .mpi, nworkers := differ o.nworkers 0, hosts := differ o.hosts [], rsets := differ o.rsets 0,
    disableRM := differ o.disableRM false, workerID := o.workerID,
    rest := o.rest.filter fun p => (o.rest.lookup p.1 == some p.2) && p.2 != 0 }

/-! ### Ensembles -/

/-- An `Ensemble` (ensemble.py:282-294): the index of its object of settings, `_nworkers`, `is_manager`, `_known_comms`. -/
structure Ens where
  ref : Option Nat
  n : Int := 0
  isManager : Bool := false
  known : Option Comms := none
deriving DecidableEq, Repr

/-- The objects of settings and the ensembles of a process; object 0 is the default argument of `Ensemble` (ensemble.py:275), made once. -/
structure World where
  objs : List Obj := [{}]
  ens : List Ens := []
deriving DecidableEq, Repr

/-- The argument `libE_specs`: not given, `None`, a dictionary, or an object. -/
inductive Arg
  | dflt | null | dict (d : Dict) | obj (i : Nat)
deriving DecidableEq, Repr

/-- `Ensemble._parse_args` (ensemble.py:315-324): the objects afterwards with the index of the ensemble's; a dictionary with entries has no `__dict__`. -/
def merge (e : Env) (objs : List Obj) (arg : Arg) (d : Dict) : Except Err (List Obj × Nat) :=
  let fresh := (build e d).map fun o => (objs ++ [o], objs.length)
  let upd := fun i => match objs[i]? with
    | some o => .ok (objs.set i (o.update d), i)
    | none => .error .kind
  match arg with
  | .null => fresh
  | .dict d' => if d' = {} then fresh else .error .kind
  | .dflt => upd 0
  | .obj i => upd i

/-- Without the command line (ensemble.py:301-304): a dictionary is made an object, other arguments stay. -/
def adopt (e : Env) (objs : List Obj) (arg : Arg) : Except Err (List Obj × Option Nat) := match arg with
  | .null => .ok (objs, none)
  | .dict d => (build e d).map fun o => (objs ++ [o], some objs.length)
  | .dflt => .ok (objs, some 0)
  | .obj i => if i < objs.length then .ok (objs, some i) else .error .kind

/-- The end of `Ensemble.__init__` (ensemble.py:296-313). `cli`: the command line, if `parse_args=True`. -/
def finish (e : Env) (objs : List Obj) (ref : Option Nat) (cli : Option Parsed) : Except Err Ens :=
  let x : Ens := { ref, n := (cli.map (·.nworkers)).getD 0, isManager := (cli.map (·.isManager)).getD false,
                   known := (ref.bind fun i => objs[i]?).map (·.comms) }
  let own := ((ref.bind fun i => objs[i]?).map (·.nworkers)).getD 0
  if x.known = some .loc then
    if por (some x.n) own = 0 then .error .workers else .ok { x with isManager := true }
  else if x.known = some .mpi ∧ cli.isNone then .ok { x with n := (mpiInit e).1, isManager := (mpiInit e).2 }
  else .ok x

/-- `Ensemble(libE_specs=arg, parse_args=…)` (ensemble.py:270-313): the objects afterwards, and the ensemble or what was raised. -/
def create (e : Env) (objs : List Obj) (arg : Arg) (cli : Option Args) : List Obj × Except Err Ens := match cli with
  | none => match adopt e objs arg with
    | .error x => (objs, .error x)
    | .ok (objs', ref) => (objs', finish e objs' ref none)
  | some a => match parse e a with
    | .error x => (objs, .error x)
    | .ok p => match merge e objs arg p.specs with
      | .error x => (objs, .error x)
      | .ok (objs', i) => (objs', finish e objs' (some i) (some p))

/-- The new value of `libE_specs`: a dictionary or an object. -/
inductive New
  | dict (d : Dict) | obj (i : Nat)
deriving DecidableEq, Repr

/-- The first part of the setter (ensemble.py:347-357): the settings to take over into `o`. -/
def News (objs : List Obj) (o : Obj) : New → Except Err Dict
  | .dict d => .ok d
  | .obj j => match objs[j]? with
    | none => .error .kind
    | some o' => if o'.comms ≠ .mpi ∧ o'.comms ≠ o.comms then .error .overwrite else .ok o'.dump

/-- The setter of `libE_specs` (ensemble.py:334-363): objects and reference afterwards, or what was raised. -/
def setSpecs (e : Env) (objs : List Obj) (ref : Option Nat) (new : New) : Except Err (List Obj × Option Nat) := match ref with
  | none => match new with
    | .dict d => (build e d).map fun o => (objs ++ [o], some objs.length)
    | .obj j => if j < objs.length then .ok (objs, some j) else .error .kind
  | some i => match objs[i]? with
    | none => .error .kind
    | some o => match News objs o new with
      | .error x => .error x
      | .ok d => if d.comms.isSome then .error .overwrite else .ok (objs.set i (o.update d), some i)

/-- The property `nworkers` (ensemble.py:424-426). -/
def World.nworkers (w : World) (x : Ens) : Int := por (some x.n) (((x.ref.bind fun i => w.objs[i]?).map (·.nworkers)).getD 0)

/-- What a script does: create an ensemble, make an object of settings, set `libE_specs` or `nworkers` of ensemble `k`, set `comms` of an object. -/
inductive Op
  | create (arg : Arg) (cli : Option Args)
  | object (d : Dict)
  | specs (k : Nat) (new : New)
  | workers (k : Nat) (v : Int)
  | comms (i : Nat) (c : Comms)
deriving DecidableEq, Repr

/-- A step, and what it raised. An ensemble whose construction raised does not exist. The setter of `nworkers` is ensemble.py:428-432: `_nworkers` is set before
the object refuses the value. -/
def step (e : Env) (w : World) : Op → World × Option Err
  | .create arg cli => match create e w.objs arg cli with
    | (objs, .ok x) => ({ objs, ens := w.ens ++ [x] }, none)
    | (objs, .error r) => ({ w with objs }, some r)
  | .object d => match build e d with
    | .ok o => ({ w with objs := w.objs ++ [o] }, none)
    | .error r => (w, some r)
  | .specs k new => match w.ens[k]? with
    | none => (w, some .kind)
    | some x => match setSpecs e w.objs x.ref new with
      | .error r => (w, some r)
      | .ok (objs, ref) => ({ objs, ens := w.ens.set k { x with ref } }, none)
  | .workers k v => match w.ens[k]? with
    | none => (w, some .kind)
    | some x =>
      let w' := { w with ens := w.ens.set k { x with n := v } }
      match x.ref.bind fun i => (w.objs[i]?).map fun o => (i, o) with
      | none => (w', none)
      | some (i, o) => match check { o with nworkers := v } with
        | .error r => (w', some r)
        | .ok o' => ({ w' with objs := w.objs.set i o' }, none)
  | .comms i c => match w.objs[i]? with
    | none => (w, some .kind)
    | some o => match check { o with comms := c } with
      | .error r => (w, some r)
      | .ok o' => ({ w with objs := w.objs.set i o' }, none)

/-- Steps one after another; an exception does not end the script. -/
def steps (e : Env) (w : World) : List Op → World
  | [] => w
  | op :: ops => steps e (step e w op).1 ops

/-! ### The run -/

/-- What a run starts in this process: the manager with a team of so many workers, or a worker. -/
inductive Role
  | manager (team : Nat)
  | worker
deriving DecidableEq, Repr

/-- The communicator and the role with which `libE` goes on, and whether resources are managed. -/
structure Launch where
  comms : Comms
  role : Role
  managed : Bool
deriving DecidableEq, Repr

/-- The choice of the routine and of the team (libE.py:256-267; libE_local libE.py:478-506 and start_proc_team libE.py:447-466; MPI: libE.py:348-432, without
`mpi_comm`, where a single process is an `AssertionError`; libE_tcp libE.py:534-551 and libE_tcp_mgr libE.py:592-598). -/
def launch (e : Env) (o : Obj) : Except Err Launch := match o.comms with
  | .loc => .ok ⟨.loc, .manager o.nworkers.toNat, !o.disableRM⟩
  | .threads => .ok ⟨.threads, .manager o.nworkers.toNat, !o.disableRM⟩
  | .mpi =>
    if 1 < e.size then .ok ⟨.mpi, if e.rank = 0 then .manager (e.size - 1) else .worker, !o.disableRM⟩
    else .error .kind
  | .tcp =>
    if o.workerID.isSome then .ok ⟨.tcp, .worker, !o.disableRM⟩
    else if o.nworkers ≠ 0 then .ok ⟨.tcp, .manager o.nworkers.toNat, !o.disableRM⟩
    else if o.hosts ≠ [] then .ok ⟨.tcp, .manager o.hosts.length, !o.disableRM⟩
    else .error .kind

/-- `Ensemble.run` (ensemble.py:405-422), with the check of the object by the call of `libE` (libE.py:151, 229-237). -/
def run (e : Env) (w : World) (x : Ens) : Except Err Launch := match x.ref.bind fun i => w.objs[i]? with
  | none => .error .kind
  | some o =>
    if some o.comms ≠ x.known then .error .changed
    else match check o with
      | .error r => .error r
      | .ok o' => launch e o'

end Verif.Settings
