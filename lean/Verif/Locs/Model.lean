/-
Model of `libensemble/utils/loc_stack.py`: the stack of working directories, used by the worker as context manager around
user code (worker.py:118, worker.py:278).

Conventions
* `P` are absolute paths, `N` names as given to `os.chdir`, `resolve cwd n` the path a name stands for.  `Path.cwd()` gives
  the absolute path of the current directory and raises if the directory is gone; `os.chdir` raises if the target does not
  exist.  Links and permissions are not modelled.
* A program is one execution of user code: what it does in order, with nested `with` blocks and `try` blocks.  Loops and
  branches are unrolled, so a theorem about all programs is one about all terminating executions.
* `slips` is not part of the code: it counts the calls of `os.chdir` made by the stack itself that raise.
-/
namespace Verif.Locs

/-- The state: current directory, the stack (top first), the registered locations, the existing directories. -/
structure St (P N K : Type) where
  cwd : P
  stack : List (Option P)
  locs : K → Option N
  dirs : P → Bool
  slips : Nat

inductive Ended where
  | ok | raised
deriving DecidableEq, Repr

/-- One execution of code that uses the stack. -/
inductive Prog (P N K : Type) where
  | skip
  | raise
  /-- `os.chdir` in user code. -/
  | chdir (n : N)
  /-- Directories appear and disappear. -/
  | files (f : P → Bool → Bool)
  /-- `register_loc`. -/
  | register (k : K) (n : N)
  | seq (p q : Prog P N K)
  /-- `try: p` with a handler `q` for every exception. -/
  | catch (p q : Prog P N K)
  /-- `with loc_stack.dir(d): p`. -/
  | inDir (d : Option N) (p : Prog P N K)
  /-- `with loc_stack.loc(k): p`. -/
  | inLoc (k : K) (p : Prog P N K)

variable {P N K : Type} [DecidableEq P] [DecidableEq K]

/-- `os.chdir` to a path. -/
def go (s : St P N K) (p : P) : St P N K × Ended :=
  if s.dirs p then ({ s with cwd := p }, .ok) else (s, .raised)

/-- `LocationStack.push` (loc_stack.py:123-129): the entry is appended before changing the directory. -/
def push (resolve : P → N → P) (s : St P N K) : Option N → St P N K × Ended
  | none => ({ s with stack := none :: s.stack }, .ok)
  | some n =>
    if s.dirs s.cwd then
      if s.dirs (resolve s.cwd n) then ({ s with stack := some s.cwd :: s.stack, cwd := resolve s.cwd n }, .ok)
      else ({ s with stack := some s.cwd :: s.stack, slips := s.slips + 1 }, .raised)
    else (s, .raised)

/-- `LocationStack.pop` (loc_stack.py:131-135). -/
def pop (s : St P N K) : St P N K × Ended :=
  match s.stack with
  | [] => (s, .raised)
  | none :: st => ({ s with stack := st }, .ok)
  | some p :: st =>
    if s.dirs p then ({ s with stack := st, cwd := p }, .ok) else ({ s with stack := st, slips := s.slips + 1 }, .raised)

/-- End of a `with` block (loc_stack.py:148-149): `__exit__` pops and returns nothing, so an exception of the body goes on. -/
def leave (r : St P N K × Ended) : St P N K × Ended :=
  match pop r.1 with
  | (s, .raised) => (s, .raised)
  | (s, .ok) => (s, r.2)

/-- A `with` block (loc_stack.py:137-157): if `__enter__` raises, neither the body nor `__exit__` runs. -/
def within (resolve : P → N → P) (s : St P N K) (d : Option N) (body : St P N K → St P N K × Ended) : St P N K × Ended :=
  match push resolve s d with
  | (s', .raised) => (s', .raised)
  | (s', .ok) => leave (body s')

/-- `register_loc` without a prefix (loc_stack.py:101-104): the directory is made if needed. -/
def register (resolve : P → N → P) (s : St P N K) (k : K) (n : N) : St P N K :=
  { s with locs := fun k' => if k' = k then some n else s.locs k', dirs := fun p => decide (p = resolve s.cwd n) || s.dirs p }

/-- Running a program. -/
def run (resolve : P → N → P) : Prog P N K → St P N K → St P N K × Ended
  | .skip, s => (s, .ok)
  | .raise, s => (s, .raised)
  | .chdir n, s => go s (resolve s.cwd n)
  | .files f, s => ({ s with dirs := fun p => f p (s.dirs p) }, .ok)
  | .register k n, s => (register resolve s k n, .ok)
  | .seq p q, s => match run resolve p s with
    | (s', .ok) => run resolve q s'
    | (s', .raised) => (s', .raised)
  | .catch p q, s => match run resolve p s with
    | (s', .ok) => (s', .ok)
    | (s', .raised) => run resolve q s'
  | .inDir d p, s => within resolve s d (run resolve p)
  | .inLoc k p, s => within resolve s (s.locs k) (run resolve p)

end Verif.Locs
