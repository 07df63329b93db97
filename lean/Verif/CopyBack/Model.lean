import Verif.Labels.Model

/-!
# Copying results back

`EnsembleDirectory.copy_back` (utils/output_directory.py:187-218), which every worker calls when it ends (worker.py:430), with the directories
that it has registered (`_make_calc_dir`, names in `Labels/Model`), while other workers go on.

Simplifications: the ensemble directory is a function from names to files and directories; what is in a directory is a function from paths to contents (numbers).
User functions write into the directory that they run in or below it and delete nothing; nothing changes between file and directory; no symbolic links;
files copied in at the start (`sim_dir_copy_files`) count as written.  The steps of a `copy_back` are not interleaved with others.
-/

namespace Verif.CopyBack
open Verif.Labels (Str Opts Calc stem str rjust)

/-- Something in the ensemble directory. -/
inductive Entry
  | file (c : Nat)
  | dir (f : Nat → Option Nat)

abbrev Store := Str → Option Entry

/-- Values of `loc_stack.dirs`: the ensemble directory, a worker's directory, the directory of a calculation in the ensemble directory, or one in a worker's
directory. -/
inductive Reg
  | ens
  | worker (n : Str)
  | own (n : Str)
  | inner (n : Str)
deriving DecidableEq, Repr

/-- The options: those of the names, and `reuse_output_dir`. -/
structure Conf where
  o : Opts
  overwrite : Bool

/-- What `_make_calc_dir` registers for a calculation, in order (output_directory.py:120-169). -/
def regsFor (cf : Conf) (w : Nat) (c : Calc) : List Reg :=
  let wd := stem ("worker".toList ++ str w)
  let cd := stem (c.name ++ rjust cf.o.pad c.text)
  if cf.o.calcDirs c then
    if cf.o.workerDirs then [.worker wd, .inner cd] else [.own cd]
  else if cf.o.workerDirs then [.worker wd] else [.ens]

/-- A dictionary keeps the place of a key. -/
def register (regs : List Reg) (new : List Reg) : List Reg := new.foldl (fun rs r => if r ∈ rs then rs else rs ++ [r]) regs

structure St where
  ens : Store := fun _ => none
  back : Store := fun _ => none
  regs : Nat → List Reg := fun _ => []
  done : Nat → Bool := fun _ => false

/-- `shutil.copytree(dire, dest_path, dirs_exist_ok=True)`, after `rmtree` if directories are reused (output_directory.py:198-200). -/
def copyDir (overwrite : Bool) (src dst : Option Entry) : Option Entry :=
  match src, dst with
  | some (.dir f), some (.dir g) => if overwrite then some (.dir f) else some (.dir fun p => (f p).or (g p))
  | some e, _ => some e
  | none, d => d

/-- The loop over `dirs.values()` (output_directory.py:192-202); true: it has returned. -/
def copyRegs (ov : Bool) (ens : Store) : List Reg → Store → Store × Bool
  | [], b => (b, false)
  | .ens :: rs, b => copyRegs ov ens rs b
  | .worker n :: _, b => (fun m => if m = n then copyDir ov (ens n) (b n) else b m, true)
  | .own n :: rs, b => copyRegs ov ens rs (fun m => if m = n then copyDir ov (ens n) (b n) else b m)
  | .inner n :: rs, b => copyRegs ov ens rs (fun m => if m = n then copyDir ov (ens n) (b n) else b m)

/-- The pattern of names left out (output_directory.py:206). -/
def calcName : Str → Bool
  | 's' :: 'i' :: 'm' :: d :: _ => d.isDigit
  | 'g' :: 'e' :: 'n' :: d :: _ => d.isDigit
  | _ => false

/-- One entry of the ensemble directory (output_directory.py:207-218). -/
def copyEntry (ov : Bool) (src dst : Option Entry) : Option Entry :=
  match src with
  | none => dst
  | some (.file c) => some (.file c)
  | some (.dir f) => if ov then some (.dir f) else match dst with
    | none => some (.dir f)
    | some e => some e                      -- FileExistsError

/-- `copy_back` (output_directory.py:187-218), with `ensemble_copy_back`. -/
def copyBack (cf : Conf) (ens : Store) (regs : List Reg) (b : Store) : Store :=
  if regs = [] then b
  else match copyRegs cf.overwrite ens regs b with
    | (b, true) => b
    | (b, false) =>
      if cf.o.simDirs && cf.o.genDirs then b
      else fun n => if calcName n then b n else copyEntry cf.overwrite (ens n) (b n)

/-- May the user function write at the name: in the directory of its calculation, its worker, or anywhere. -/
def may (regs : List Reg) (n : Str) : Bool := regs.any fun r => match r with
  | .ens => true
  | .worker m | .own m => decide (m = n)
  | .inner _ => false

inductive Step
  | call (w : Nat) (c : Calc)
  | write (w : Nat) (n : Str) (p c : Nat)     -- a file in a directory
  | put (w : Nat) (n : Str) (c : Nat)         -- a file in the ensemble directory
  | finish (w : Nat)

def step (cf : Conf) (s : St) : Step → St
  | .call w c => if s.done w then s else { s with regs := fun v => if v = w then register (s.regs w) (regsFor cf w c) else s.regs v }
  | .write w n p c =>
    if s.done w = false ∧ may (s.regs w) n = true then
      match s.ens n with
      | some (.file _) => s
      | some (.dir f) => { s with ens := fun m => if m = n then some (.dir fun q => if q = p then some c else f q) else s.ens m }
      | none => { s with ens := fun m => if m = n then some (.dir fun q => if q = p then some c else none) else s.ens m }
    else s
  | .put w n c =>
    if s.done w = false ∧ .ens ∈ s.regs w then
      match s.ens n with
      | some (.dir _) => s
      | _ => { s with ens := fun m => if m = n then some (.file c) else s.ens m }
    else s
  | .finish w =>
    if s.done w then s
    else { s with back := copyBack cf s.ens (s.regs w) s.back, done := fun v => if v = w then true else s.done v }

def run (cf : Conf) (ss : List Step) : St := ss.foldl (step cf) {}

end Verif.CopyBack
