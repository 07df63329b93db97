/-
Model of the names of calculation directories: `extract_H_ranges` (utils/misc.py:13-27), `EnsembleDirectory._make_calc_dir`
and `prep_calc_dir` (utils/output_directory.py:94-185), `LocationStack.register_loc` (utils/loc_stack.py:104-105).

Conventions
* A string is a list of characters; `str(n)` of a natural number is its list of decimal digits.
* Row numbers are natural numbers.
* A path is a list of names below the current directory.
-/
namespace Verif.Labels

abbrev Str := List Char

/-- `str(n)`. -/
def str (n : Nat) : Str := Nat.toDigits 10 n

/-- The groups made by `groupby` over `enumerate(rows)` with the key index - row (misc.py:21-22): neighbours with the same key
are in one group.  `i` is the index of the first row. -/
def groups : Nat → List Nat → List (List Nat)
  | _, [] => []
  | i, v :: vs =>
    match groups (i + 1) vs with
    | (u :: us) :: gs => if (i : Int) - v = (i + 1 : Nat) - u then (v :: u :: us) :: gs else [v] :: (u :: us) :: gs
    | gs => [v] :: gs

/-- One range (misc.py:23-26). -/
def piece (g : List Nat) : Str :=
  if g.length > 1 then str (g.headD 0) ++ '-' :: str (g.getLastD 0) else str (g.headD 0)

/-- `extract_H_ranges` (misc.py:13-27). -/
def label (rows : List Nat) : Str :=
  if rows.length = 1 then str (rows.headD 0) else List.intercalate ['_'] ((groups 0 rows).map piece)

/-- `s.rjust(width, "0")`. -/
def rjust (width : Nat) (s : Str) : Str := List.replicate (width - s.length) '0' ++ s

/-- `Path.stem` of a single name. -/
def stem (s : Str) : Str :=
  let suffix := s.reverse.takeWhile (· ≠ '.')
  let rest := ((s.reverse.dropWhile (· ≠ '.')).drop 1).reverse
  if '.' ∈ s ∧ rest ≠ [] ∧ suffix ≠ [] then rest else s

/-- The kinds of calculations; the number of the call of a generator is counted by each worker (worker.py:260). -/
inductive Calc where
  | sim (rows : List Nat)
  | gen (iter : Nat)
deriving DecidableEq, Repr

def Calc.name : Calc → Str
  | .sim _ => "sim".toList
  | .gen _ => "gen".toList

/-- `H_rows` of `prep_calc_dir` (output_directory.py:176-179). -/
def Calc.text : Calc → Str
  | .sim rows => label rows
  | .gen n => str n

/-- The options that decide about directories (output_directory.py:45-71). -/
structure Opts where
  ensemble : List Str
  workerDirs : Bool
  simDirs : Bool
  genDirs : Bool
  pad : Nat

/-- `do_calc_dirs` (output_directory.py:96-111). -/
def Opts.calcDirs (o : Opts) : Calc → Bool
  | .sim _ => if o.workerDirs && !o.simDirs && !o.genDirs then false else o.simDirs
  | .gen _ => if o.workerDirs && !o.simDirs && !o.genDirs then false else o.genDirs

/-- The directory in which a calculation runs (output_directory.py:121-169, loc_stack.py:104-105: only the stem of the name
is used below a prefix). -/
def calcDir (o : Opts) (worker : Nat) (c : Calc) : List Str :=
  let workerDir := "worker".toList ++ str worker
  if o.calcDirs c then
    (if o.workerDirs then o.ensemble ++ [workerDir] else o.ensemble) ++ [stem (c.name ++ rjust o.pad c.text)]
  else if o.workerDirs then o.ensemble ++ [stem workerDir] else o.ensemble

end Verif.Labels
