/-!
Checks that complete the settings of a run: directories, saving, exit criterion, fields of the user functions
(utils/validators.py, utils/specs_checkers.py).

`none` as a result is an exception.  Paths are `pathlib.Path` objects: absolute or not, and the parts; links are not
followed, and a text that begins with "//" is as with "/".  What pydantic does
itself (types, defaults) is not modelled.  The checks are made when the object is made, and again at each assignment to one of
its fields (`validate_assignment`, utils/pydantic_bindings.py:32).
-/
namespace Verif.Checks

abbrev Str := List Char

/-- A path: `Path("a/b")` has the parts "a" and "b", `Path(".")` has none. -/
structure Path where
  abs : Bool
  parts : List Str
deriving DecidableEq, Repr

/-- The parts between "/", with empty ones. -/
def pieces : Str → List Str
  | [] => [[]]
  | c :: cs =>
    match pieces cs with
    | [] => [[c]]
    | p :: ps => if c = '/' then [] :: p :: ps else (c :: p) :: ps

/-- `Path(text)`. -/
def Path.ofText (s : Str) : Path :=
  { abs := s.head? == some '/', parts := (pieces s).filter (fun p => p != [] && p != ['.']) }

/-- `str(path)`. -/
def Path.text (p : Path) : Str :=
  if p.abs then '/' :: ['/'].intercalate p.parts
  else if p.parts = [] then ['.'] else ['/'].intercalate p.parts

/-- `path.absolute()` in the working directory `cwd`. -/
def Path.absolute (cwd p : Path) : Path := if p.abs then p else { abs := true, parts := cwd.parts ++ p.parts }

/-- What a setting for a directory can be (`str | Path | None`, specs.py:397, 434, 457). -/
inductive Dir
  | none
  | text (s : Str)
  | path (p : Path)
deriving DecidableEq, Repr

/-- `len(str(…))`; `str(None)` is "None". -/
def Dir.len : Dir → Nat
  | .none => 4
  | .text s => s.length
  | .path p => p.text.length

/-- `Path(…)`, an exception for `None`. -/
def Dir.path? : Dir → Option Path
  | .none => Option.none
  | .text s => some (Path.ofText s)
  | .path p => some p

/-- The directory that is meant, seen from the working directory `cwd`. -/
def Dir.meant (cwd : Path) (d : Dir) : Option Path := d.path?.map (Path.absolute cwd)

/-- `use_workflow_dir` and `workflow_dir_path` (specs.py:384, 397). -/
structure Workflow where
  use : Bool := false
  dir : Dir := .text ['.']
deriving DecidableEq, Repr

/-- `_check_set_workflow_dir` (specs_checkers.py:79-86); `token` is the random text. -/
def checkWorkflow (cwd : Path) (token : Str) (w : Workflow) : Option Workflow :=
  if w.use ∧ w.dir.len ≤ 1 then
    some { w with dir := .path (Path.absolute cwd ⟨false, ["workflow_".toList ++ token]⟩) }
  else if 1 < w.dir.len then
    match w.dir.path? with
    | none => none
    | some p => some { use := true, dir := .path (Path.absolute cwd p) }
  else some w

/-- `check_input_dir_exists` (validators.py:73-79), `there` tells which directories exist. -/
def checkInput (cwd : Path) (there : Path → Bool) : Dir → Option Dir
  | .none => some .none
  | .text [] => some (.text [])
  | .text s =>
    let p := Path.absolute cwd (Path.ofText s)
    if there p then if p ≠ ⟨false, []⟩ then some (.path p) else none else none
  | .path p => if there (Path.absolute cwd p) then if p ≠ ⟨false, []⟩ then some (.path p) else none else none

/-- Whether a setting counts as true. -/
def Dir.truth : Dir → Bool
  | .none => false
  | .text s => s != []
  | .path _ => true

/-- `_check_set_calc_dirs_on_input_dir` (specs_checkers.py:89-94), for simulators or for generators: `sim_dirs_make` or
`gen_dirs_make` afterwards. -/
def checkMake (input : Dir) (make : Bool) : Bool := if input.truth && !make then true else make

/-- `enable_save_H_when_every_K` (validators.py:130-136): `save_H_on_completion` afterwards.  `None > 0` is an exception. -/
def checkSave (save : Bool) (kSims kGens : Option Int) : Option Bool :=
  if save then some save
  else
    match kSims with
    | none => none
    | some a =>
      if 0 < a then some true
      else
        match kGens with
        | none => none
        | some b => some (if 0 < b then true else save)

/-- `_check_exit_criteria` (specs_checkers.py:19-25): whether the field of `stop_val` is accepted. -/
def checkStop (stop : Option Str) (simOut genOut : List Str) : Bool :=
  match stop with
  | none => true
  | some f => decide (f ∈ simOut ++ genOut)

/-- `_check_logical_cores` (specs_checkers.py:97-102). -/
def checkCores (cores logical : Option Nat) : Bool :=
  match cores, logical with
  | some c, some l => if c ≠ 0 ∧ l ≠ 0 then l % c == 0 else true
  | _, _ => true

/-- What a user function or its settings say of fields: `inputs`, `outputs`, `persis_in`; for a function `none` if there is
no such attribute. -/
structure Fn where
  inputs : Option (List Str) := none
  outputs : Option (List Str) := none
  persisIn : Option (List Str) := none
deriving DecidableEq, Repr

structure Fields where
  inputs : List Str := []
  outputs : List Str := []
  persisIn : List Str := []
deriving DecidableEq, Repr

def fill (attr : Option (List Str)) (own : List Str) : List Str :=
  match attr with
  | some a => if own = [] then a else own
  | none => own

/-- `simf_set_in_out_from_attrs`, `genf_set_in_out_from_attrs` (validators.py:178-197). -/
def setFields (f : Fn) (s : Fields) : Fields :=
  { inputs := fill f.inputs s.inputs, outputs := fill f.outputs s.outputs, persisIn := fill f.persisIn s.persisIn }

end Verif.Checks
