/-!
Checks of the lines that start programs: libensemble/tools/test_support.py (`check_mpi_runner`, `check_gpu_setting` and
what they use) and libensemble/sim_funcs/run_line_check.py (the expected lines of a worker).

* A line is the list of its words (`str.split`); words are lists of characters.
* Decimal notation is a parameter (`Dec`): `str` of a number, `int` of a text.
* Not modelled: what is printed; the settings of `resources` other than those read here; rounding in `nodes_per_worker`,
  which is a fraction here.
-/
namespace Verif.RunLines

abbrev Text := List Char

/-- `str(n)` and `int(text)` for numbers that are not negative. -/
structure Dec where
  str : Nat → Text
  int : Text → Option Nat
  back : ∀ n, int (str n) = some n
  plain : ∀ n, ' ' ∉ str n

inductive Err
  | index | key | assertion | type | value | zero | attribute
deriving DecidableEq, Repr

/-! ### Reading a line (test_support.py:4-27) -/

/-- `name.endswith("=")`. -/
def eqEnd (name : Text) : Bool := name.getLast? == some '='

/-- `word.split("=")[1]` for a word with "=". -/
def afterEq (w : Text) : Text := ((w.dropWhile (· != '=')).drop 1).takeWhile (· != '=')

/-- The loop of `_get_value` (test_support.py:6-13) and of `_get_opt_value` (test_support.py:19-26): `two` is what is kept of a
word and the next one, `one` what is kept of a word that begins with a name ending in "=". -/
def scan (two : Text → Text → Text) (one : Text → Text) (name : Text) : List Text → Option Text → Except Err (Option Text)
  | [], acc => .ok acc
  | w :: ws, acc =>
    if w = name then
      match ws with
      | [] => .error .index
      | v :: vs => scan two one name (v :: vs) (some (two w v))
    else if name.isPrefixOf w ∧ eqEnd name then scan two one name ws (some (one w))
    else scan two one name ws acc

/-- test_support.py:4-14. -/
def getValue (name : Text) (line : List Text) : Except Err (Option Text) := scan (fun _ v => v) afterEq name line none

/-- test_support.py:17-27. -/
def getOpt (name : Text) (line : List Text) : Except Err (Option Text) := scan (fun w v => w ++ ' ' :: v) (fun w => w) name line none

/-- The loops over `ppn_setting[mpirunner]` (test_support.py:92-95, 159-162): the first name that is found. -/
def firstFound (read : Text → Except Err (Option Text)) : List Text → Except Err (Option Text)
  | [] => .ok none
  | n :: ns => match read n with
    | .error e => .error e
    | .ok (some v) => .ok (some v)
    | .ok none => firstFound read ns

/-- `runline.split(" ", 1)[0]` (test_support.py:87, 126). -/
def runnerOf (line : List Text) : Text := line.head?.getD []

/-- test_support.py:76-83, 147-153; the last entry is in the first of these tables only, and is not reached in the other case. -/
def ppnNames (runner : Text) : Option (List Text) :=
  if runner = "mpiexec".toList ∨ runner = "mpirun".toList then some ["--ppn".toList, "-npernode".toList]
  else if runner = "srun".toList then some ["--ntasks-per-node".toList]
  else if runner = "jsrun".toList then some ["-r".toList]
  else if runner = "aprun".toList then some ["-N".toList]
  else if runner = "special_mpi".toList then some ["-npernode".toList]
  else none

/-- test_support.py:139-145. -/
def procsName (runner : Text) : Option Text :=
  if runner = "mpiexec".toList ∨ runner = "mpirun".toList then some "-np".toList
  else if runner = "srun".toList then some "--ntasks".toList
  else if runner = "jsrun".toList ∨ runner = "aprun".toList then some "-n".toList
  else none

/-- test_support.py:69-74: the runner and the option for processes per node. -/
def runnerInfo (exp : Text) : Option (Text × Text) :=
  if exp = "mpich".toList then some ("mpirun".toList, "--ppn".toList)
  else if exp = "openmpi".toList then some ("mpirun".toList, "-npernode".toList)
  else if exp = "srun".toList then some ("srun".toList, "--ntasks-per-node".toList)
  else if exp = "special_mpi".toList then some ("special_mpi".toList, "-npernode".toList)
  else none

/-- `check_mpi_runner` (test_support.py:65-100). -/
def checkRunner (exp : Text) (line : List Text) : Except Err Unit :=
  match runnerInfo exp with
  | none => .error .key
  | some (run, opt) =>
    if runnerOf line ≠ run then .error .assertion
    else match ppnNames (runnerOf line) with
      | none => .error .key
      | some names => match firstFound (fun n => getOpt n line) names with
        | .error e => .error e
        | .ok none => .error .attribute
        | .ok (some t) => if t.takeWhile (· != ' ') = opt then .ok () else .error .assertion

/-! ### The setting for GPUs (test_support.py:103-257) -/

inductive Kind
  | env | perNode | perTask
deriving DecidableEq, Repr

/-- `gpu_setting_type` of the platform. -/
inductive PType
  | runnerDefault | of (k : Kind) | other
deriving DecidableEq, Repr

/-- The entries of `platform_info` read here. -/
structure Plat where
  type : Option PType := none
  name : Option Text := none
deriving DecidableEq, Repr

/-- What the worker has: `even_slots`, `matching_slots`, `slot_count`, `gpus_per_rset_per_node`, `gen_ngpus`,
`doihave_gpus()`, and the list of its GPUs (`get_slots_as_string`) up to `gen_ngpus`. -/
structure Res where
  even : Bool := true
  matching : Bool := true
  count : Nat
  per : Nat
  gen : Option Nat := none
  gpus : Bool := true
  list : Text := []
deriving DecidableEq, Repr

/-- What is read of a task. -/
structure Task where
  line : List Text
  env : List (Text × Text) := []
  ngpusReq : Nat
deriving DecidableEq, Repr

/-- `_default_option_names` (test_support.py:30-43). -/
def defaultName (runner : Text) (k : Kind) : Option Text :=
  if runner = "srun".toList then some (if k = .perTask then "--gpus-per-task".toList else "--gpus-per-node".toList)
  else if runner = "jsrun".toList ∧ k = .perTask then some "-g".toList
  else none

/-- The setting that is expected: its name and kind. -/
structure Want where
  name : Text
  kind : Kind
deriving DecidableEq, Repr

/-- The setting of the runner (test_support.py:183-203). -/
def wantDefault (r : Res) (line : List Text) : Except Err Want :=
  if runnerOf line = "srun".toList then
    if r.even = false then .error .assertion
    else match getValue "--gpus-per-task".toList line with
      | .error e => .error e
      | .ok (some _) => .ok ⟨"--gpus-per-task".toList, .perTask⟩
      | .ok none => match getValue "--gpus-per-node".toList line with
        | .error e => .error e
        | .ok (some _) => .ok ⟨"--gpus-per-node".toList, .perNode⟩
        | .ok none => .ok ⟨"--gpus-per-task".toList, .perTask⟩
  else if runnerOf line = "jsrun".toList then
    if r.even = false then .error .assertion else .ok ⟨"-g".toList, .perTask⟩
  else if r.matching = false then .error .assertion
  else .ok ⟨"CUDA_VISIBLE_DEVICES".toList, .env⟩

/-- test_support.py:164-203. -/
def want (r : Res) (p : Plat) (line : List Text) : Except Err Want :=
  match p.type with
  | some .other => .error .assertion
  | some (.of k) => match p.name.or (defaultName (runnerOf line) k) with
    | none => .error .assertion
    | some n => if (if k = .env then r.matching else r.even) = false then .error .assertion else .ok ⟨n, k⟩
  | _ => wantDefault r line

/-- `_safe_min` (test_support.py:53-58) of the GPUs on a node and the number asked for by the generator (test_support.py:207). -/
def Res.number (r : Res) : Nat := match r.gen with
  | some g => min (r.count * r.per) g
  | none => r.count * r.per

/-- `_set_gpus` (test_support.py:61-62). -/
def asks (r : Res) (t : Task) : Bool := r.gpus && decide (0 < t.ngpusReq)

/-- `_get_expected_output` (test_support.py:46-50). -/
def expectedOutput (D : Dec) (name : Text) (v : Nat) : Text :=
  if eqEnd name then name ++ D.str v else name ++ ' ' :: D.str v

/-- The comparison for an option (test_support.py:213-219, 254-257).  The option is looked for in the words only if its name is in
the line; this makes no difference, since each word that would be found contains the name. -/
def compareOption (D : Dec) (r : Res) (t : Task) (name : Text) (v : Nat) : Except Err Unit :=
  match getOpt name t.line with
  | .error e => .error e
  | .ok found => if found = (if asks r t then some (expectedOutput D name v) else none) then .ok () else .error .assertion

/-- The comparison for the environment (test_support.py:220-230, 244-253). -/
def compareEnv (r : Res) (t : Task) (name : Text) : Except Err Unit :=
  if asks r t then (if t.env.lookup name = some r.list then .ok () else .error .assertion) else .ok ()

/-- test_support.py:205-257. -/
def compare (D : Dec) (r : Res) (t : Task) (ppn : Option Text) (w : Want) : Except Err Unit :=
  match w.kind with
  | .env => compareEnv r t w.name
  | .perNode => compareOption D r t w.name r.number
  | .perTask => match ppn with
    | none => .error .type
    | some x => match D.int x with
      | none => .error .value
      | some 0 => .error .zero
      | some (k + 1) => compareOption D r t w.name (r.number / (k + 1))

/-- `check_gpu_setting` (test_support.py:103-257). -/
def checkGpu (D : Dec) (r : Res) (p : Plat) (t : Task) : Except Err Unit :=
  if runnerOf t.line = "special_mpi".toList then .ok ()
  else match procsName (runnerOf t.line), ppnNames (runnerOf t.line) with
    | some pn, some names => match getValue pn t.line with
      | .error e => .error e
      | .ok _ => match firstFound (fun n => getValue n t.line) names with
        | .error e => .error e
        | .ok ppn => match want r p t.line with
          | .error e => .error e
          | .ok w => compare D r t ppn w
    | _, _ => .error .key

/-! ### Expected lines of a worker (run_line_check.py) -/

/-- `circ_offset` (run_line_check.py:7-12). -/
def circOffset (wid len : Nat) : Nat :=
  if wid + (len / 2 + (if len % 2 > 0 then 1 else 0)) > len then wid + (len / 2 + (if len % 2 > 0 then 1 else 0)) - len
  else wid + (len / 2 + (if len % 2 > 0 then 1 else 0))

/-- A word of an expected line: names and numbers of nodes, or something else. -/
inductive Comp
  | nodes (l : List (Text × Int))
  | other (w : Text)
deriving DecidableEq, Repr

/-- `int(nodes_per_worker * offset)` (run_line_check.py:25-26), for `a / b` nodes per worker; `int` rounds towards zero. -/
def shift (a b : Nat) (wid gens : Nat) : Int := ((a : Int) * ((wid : Int) - (1 + gens))).tdiv b

/-- `exp_nodelist_for_worker` (run_line_check.py:15-33). -/
def expFor (a b wid gens : Nat) (l : List Comp) : List Comp :=
  l.map (fun c => match c with
    | .nodes ns => .nodes (ns.map (fun n => (n.1, n.2 + shift a b wid gens)))
    | .other w => .other w)

/-- `l[i]` in Python: from the end if `i` is negative. -/
def pyGet {α} (l : List α) (i : Int) : Option α :=
  if 0 ≤ i then l[i.toNat]? else if 0 ≤ i + l.length then l[(i + l.length).toNat]? else none

/-- The line expected by `runline_check_by_worker` (run_line_check.py:105-110); `none`: IndexError. -/
def expByWorker {α} (offset : Bool) (l : List α) (wid gens : Nat) : Option α :=
  pyGet l ((if offset then (circOffset wid l.length : Int) else wid) - 1 - gens)

end Verif.RunLines
