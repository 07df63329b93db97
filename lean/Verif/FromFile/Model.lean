/-!
# Settings from a file

`Ensemble.from_yaml`, `from_toml` and `from_json` with `_parameterize`, `_parse_spec` and `_get_outputs` (ensemble.py:434-537), for the settings other than `libE_specs`, whose setter is in
`Settings/Model.lean`.

Dictionaries are lists of pairs without repeated keys.  What pydantic says to values is left out: only names of fields are checked (`extra="forbid"`, `populate_by_name`, pydantic_bindings.py:32),
and an object keeps the fields that were given.  Reading the file and importing functions are inputs.
-/

namespace Verif.FromFile

variable {V : Type}

abbrev Dict (V : Type) := List (String × V)

/-- `d[k] = v`. -/
def put (d : Dict V) (k : String) (v : V) : Dict V :=
  if (d.lookup k).isSome then d.map (fun p => if p.1 == k then (k, v) else p) else d ++ [(k, v)]

/-- `d.update(l)`. -/
def update (d : Dict V) (l : Dict V) : Dict V := l.foldl (fun d p => put d p.1 p.2) d

/-- `d.pop(k)` for a key that is there. -/
def del (d : Dict V) (k : String) : Dict V := d.filter (fun p => p.1 != k)

/-- `d.get(k)` as a condition. -/
def truth (truthy : V → Bool) (d : Dict V) (k : String) : Bool := ((d.lookup k).map truthy).getD false

/-- The name of a field for a key: aliases `in` and `out` (specs.py:79, 92, 174, 186, 295). -/
def field (k : String) : String := if k = "in" then "inputs" else if k = "out" then "outputs" else k

/-- `ClassType(**d)`; `none`: refused, for an unknown key or for a field given by name and by alias. -/
def build (known : List String) (d : Dict V) : Option (Dict V) :=
  if (d.all fun p => decide (field p.1 ∈ known)) && !((d.lookup "in").isSome && (d.lookup "inputs").isSome) && !((d.lookup "out").isSome && (d.lookup "outputs").isSome)
  then some (d.map fun p => (field p.1, p.2)) else none

/-- Lines 510-513. -/
def unclash (truthy : V → Bool) (d : Dict V) : Dict V :=
  if truth truthy d "in" && truth truthy d "inputs" then del d "inputs"
  else if truth truthy d "out" && truth truthy d "outputs" then del d "outputs"
  else d

/-- `_parse_spec` (480-500): `conv k v` is the value of the conversion for this key, which is the value itself for other keys; `none`: an exception. -/
def parse (conv : String → V → Option V) : Dict V → Option (Dict V)
  | [] => some []
  | (k, v) :: rest => match conv k v, parse conv rest with
    | some v, some rest => some ((k, v) :: rest)
    | _, _ => none

/-- An attribute of the ensemble: nothing, a dictionary (by its place in memory), or an object with its fields. -/
inductive Slot (V : Type) where
  | nothing
  | dict (r : Nat)
  | obj (fields : Dict V)

/-- What stays the same in a program: truth of values, fields of the class of each attribute (CORRESPONDING_CLASSES, 27-33), conversions. -/
structure Ctx (V : Type) where
  truthy : V → Bool
  known : String → List String
  conv : String → V → Option V

/-- One turn of the loop in `_parameterize` (504-516): memory afterwards, and the attribute or `none` for an exception. -/
def load1 (c : Ctx V) (heap : List (Dict V)) (name : String) (old : Slot V) (file : Dict V) : List (Dict V) × Option (Slot V) :=
  match parse c.conv file with
  | none => (heap, none)
  | some loaded => match old with
    | .dict r =>
      let d := unclash c.truthy (update ((heap[r]?).getD []) loaded)
      (heap.set r d, (build (c.known name) d).map .obj)
    | _ => (heap, (build (c.known name) loaded).map .obj)

/-- An ensemble: its attributes. -/
abbrev Ens (V : Type) := List (String × Slot V)

/-- `_parameterize` (502-516); `false`: an exception ended it. -/
def load (c : Ctx V) : List (Dict V) → Ens V → List (String × Dict V) → List (Dict V) × Ens V × Bool
  | heap, e, [] => (heap, e, true)
  | heap, e, (name, d) :: rest => match e.lookup name with
    | none => (heap, e, false)
    | some old => match load1 c heap name old d with
      | (heap, none) => (heap, e, false)
      | (heap, some s) => load c heap (put e name s) rest

/-- `Ensemble()` (270-288): the default of `exit_criteria` is a dictionary made once, at place 0; the others are objects. -/
def fresh : Ens V := [("sim_specs", .obj []), ("gen_specs", .obj []), ("exit_criteria", .dict 0), ("alloc_specs", .obj [])]

/-! ### Output fields -/

/-- An entry under "outputs" in a file: type and size, where present (456-463). -/
structure Entry where
  type : Option String
  size : Option Nat

/-- A type: one of Python's, or a text for numpy (457). -/
inductive Ty where
  | builtin (s : String)
  | text (s : String)
deriving DecidableEq

/-- `_get_outputs` (447-466): name, type, size; size 1 is `(1,)`, which is `some none` here.  `none`: a KeyError for a missing type. -/
def outputs (builtins : List String) : List (String × Entry) → Option (List (String × Ty × Option (Option Nat)))
  | [] => some []
  | (k, e) :: rest => match e.type, outputs builtins rest with
    | some t, some l => some ((k, if t ∈ builtins then Ty.builtin t else Ty.text t, e.size.map (fun n => if n = 1 then none else some n)) :: l)
    | _, _ => none

end Verif.FromFile
