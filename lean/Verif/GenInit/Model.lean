import Verif.Arrays.Model

/-!
# How generator objects are made

The constructors of `LibensembleGenerator` (generators.py:41-92), `PersistentGenInterfacer` (generators.py:125-140) and `APOSMM` (gen_classes/aposmm.py:173-257).

Dictionaries are objects: `maps` holds those of field mappings and `specs` those of generator specifications.  An address is a place in the list.  Address 0 is the
dictionary `{}` written as a default argument: Python makes it once, when the function is defined, so that every call which leaves the argument out gets this object.

Simplifications: of `gen_specs` only the entry "user" is kept; of the VOCS only the names of variables and objectives, and the bounds for `APOSMM`; random streams are an
input; `History` and `libE_info` are left out.
-/

namespace Verif.GenInit
open Verif.Arrays (Mapping)

/-- A Python dictionary with strings as keys. -/
abbrev Dic (V : Type) := List (String × V)

/-- `d[k] = v`: the value of an existing key is replaced in its place. -/
def put {V : Type} (d : Dic V) (k : String) (v : V) : Dic V :=
  if k ∈ d.map (·.1) then d.map (fun p => if p.1 = k then (k, v) else p) else d ++ [(k, v)]

/-- `d.update(kw)` (generators.py:77). -/
def update {V : Type} (d kw : Dic V) : Dic V := kw.foldl (fun d p => put d p.1 p.2) d

structure Vocs where
  vars : List String
  objs : List String
deriving DecidableEq

inductive Err
  | index     -- IndexError: `list(…)[0]` of nothing
  | key       -- KeyError
  | value     -- ValueError
deriving DecidableEq

/-- `_get_unmapped_keys` (generators.py:86-93). -/
def unmapped (m : Mapping) (names : List String) : List String := names.filter (fun v => decide (v ∉ m.flatMap (·.2)))

/-- Names are mapped to the default field unless the field is there or the only name is that of the field (generators.py:58-69). -/
def addField (m : Mapping) (key : String) (names : List String) : Mapping × Option Err :=
  if key ∈ m.map (·.1) then (m, none)
  else match names with
    | [] => (m, some .index)
    | n :: rest => if rest ≠ [] ∨ n ≠ key then (m ++ [(key, unmapped m names)], none) else (m, none)

/-- The mapping made by the constructor from the given one (generators.py:58-72), with the exception, if any: what was written before it stays. -/
def mapping (m : Mapping) (v : Vocs) (returnsId : Bool) : Mapping × Option Err :=
  match addField m "x" v.vars with
  | (m, some e) => (m, some e)
  | (m, none) => match addField m "f" v.objs with
    | (m, some e) => (m, some e)
    | (m, none) => (if returnsId then put m "sim_id" ["_id"] else m, none)

/-- Dictionaries of the process. -/
structure Heap (V : Type) where
  maps : List Mapping
  /-- the entry "user" of every `gen_specs`, if there is one -/
  specs : List (Option (Dic V))

/-- At the start there are only the default arguments. -/
def start (V : Type) : Heap V := ⟨[[]], [none]⟩

structure Args (V : Type) where
  vocs : Vocs
  returnsId : Bool := false
  /-- addresses of the dictionaries; 0 if the argument is left out -/
  map : Nat := 0
  spec : Nat := 0
  kwargs : Dic V := []
  pinfo : Dic V := []

structure Gen (V : Type) where
  map : Nat
  spec : Nat
  pinfo : Dic V

/-- The entry "user" after the constructor (generators.py:74-77): an empty one counts as missing and is replaced. -/
def userOf {V : Type} (u : Option (Dic V)) (kwargs : Dic V) : Option (Dic V) :=
  if kwargs = [] then u else some (update (match u with | some d => d | none => []) kwargs)

/-- `LibensembleGenerator.__init__` (generators.py:41-81).  `fresh` is the `persis_info` with a stream of seed 4321 (generators.py:79).
A mapping without entries is replaced by a new dictionary (generators.py:55-56); any other one is written to. -/
def build {V : Type} [DecidableEq V] (fresh : Dic V) (h : Heap V) (a : Args V) : Heap V × Except Err (Gen V) :=
  let given := h.maps[a.map]?.getD []
  let at_ := if given = [] then h.maps.length else a.map
  let r := mapping given a.vocs a.returnsId
  let maps := if given = [] then h.maps ++ [r.1] else h.maps.set a.map r.1
  match r.2 with
  | some e => ({ h with maps := maps }, .error e)
  | none => (⟨maps, h.specs.set a.spec (userOf (h.specs[a.spec]?.getD none) a.kwargs)⟩,
      .ok ⟨at_, a.spec, if "rand_stream" ∈ a.pinfo.map (·.1) then a.pinfo else fresh⟩)

/-- Several generators are made, one after the other. -/
def buildAll {V : Type} [DecidableEq V] (fresh : Dic V) : Heap V → List (Args V) → Heap V × List (Except Err (Gen V))
  | h, [] => (h, [])
  | h, a :: as =>
    let r := build fresh h a
    let rs := buildAll fresh r.1 as
    (rs.1, r.2 :: rs.2)

/-- What a generator sees: its mapping and its settings. -/
def mapOf {V : Type} (h : Heap V) (g : Gen V) : Mapping := h.maps[g.map]?.getD []
def settingsOf {V : Type} (h : Heap V) (g : Gen V) : Dic V := (h.specs[g.spec]?.getD none).getD []

/-- What `APOSMM` computes at the end of its constructor: the bounds, the sizes of its fields, and the dimension that the default of `rk_const` is computed with. -/
structure Sizes (B : Type) where
  lb : List B
  ub : List B
  x : Nat
  cube : Nat
  n : Nat

/-- `APOSMM.__init__` after the constructor of the class above (aposmm.py:200, 227-257); its `gen_specs` is always a new dictionary (aposmm.py:195-196).
`dom` are the domains of the variables; a name in the mapping which is no variable is a KeyError. -/
def aposmm {B : Type} (v : Vocs) (dom : String → B × B) (m : Mapping) : Except Err (Sizes B) :=
  match m.lookup "x" with
  | none => .error .key
  | some xs =>
    if xs.all (fun s => decide (s ∈ v.vars)) then
      let cube := ((m.lookup "x_on_cube").getD []).length
      if xs.length = 0 ∨ cube = 0 then .error .value
      else if xs.length ≠ cube then .error .value
      else .ok ⟨xs.map (fun s => (dom s).1), xs.map (fun s => (dom s).2), xs.length, cube, v.vars.length⟩
    else .error .key

end Verif.GenInit
