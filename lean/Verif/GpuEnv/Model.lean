/-!
# Variables for GPUs

resources/worker_resources.py: `get_slots_as_string`, `set_env_to_slots`, `set_env_to_gpus`.

A value is the list of its entries, not their text; the environment maps names to values.
-/
namespace Verif.GpuEnv

/-- An entry of the list: a GPU, and a tile if GPUs have tiles. -/
structure Entry where
  gpu : Nat
  tile : Option Nat
deriving DecidableEq, Repr

/-- `[j for i in slots_on_node for j in range(i * n, (i + 1) * n)]` (worker_resources.py:221). -/
def numbers (slots : List Nat) (n : Nat) : List Nat := slots.flatMap fun i => (List.range n).map (i * n + ·)

/-- `get_slots_as_string` with slots (worker_resources.py:217-228). -/
def entries (slots : List Nat) (n : Nat) (limit : Option Nat) (tiles : Nat) : List Entry :=
  let l := match limit with
    | none => numbers slots n
    | some k => (numbers slots n).take k
  l.map fun i => if 1 < tiles then ⟨i / tiles, some (i % tiles)⟩ else ⟨i, none⟩

/-- The entries of `platform_info` read here: `gpu_setting_type` is "env", `gpu_setting_name`, `gpu_env_fallback`. -/
structure Plat where
  env : Bool := false
  name : Option String := none
  fallback : Option String := none

/-- `matching_slots`, `slots_on_node`, `gpus_per_rset_per_node`, `gen_ngpus`, `tiles_per_gpu`, `doihave_gpus()`, `platform_info`. -/
structure Worker where
  matching : Bool := true
  slots : Option (List Nat)
  per : Nat
  ngpus : Option Nat := none
  tiles : Nat := 1
  gpus : Bool := true
  plat : Option Plat := none

inductive Err
  | assertion | type
deriving DecidableEq, Repr

abbrev Env := String → Option (List Entry)

def Env.put (e : Env) (v : String) (x : List Entry) : Env := fun n => if n = v then some x else e n

/-- The name of the variable (worker_resources.py:280-287). -/
def varName (given : Option String) (p : Option Plat) : Option String :=
  match given with
  | some v => some v
  | none => match p with
    | none => some "CUDA_VISIBLE_DEVICES"
    | some p => if p.env then p.name
      else match p.fallback with
        | some f => if f = "" then some "CUDA_VISIBLE_DEVICES" else some f
        | none => some "CUDA_VISIBLE_DEVICES"

/-- `set_env_to_slots` (worker_resources.py:253); a value or a name that is None is a TypeError. -/
def setSlots (w : Worker) (v : String) (n : Nat) (e : Env) : Except Err Env :=
  match w.slots with
  | none => .error .type
  | some s => .ok (e.put v (entries s n none w.tiles))

/-- `set_env_to_gpus` (worker_resources.py:277-289). -/
def setGpus (w : Worker) (given : Option String) (e : Env) : Except Err Env :=
  if w.matching = false then .error .assertion
  else if w.gpus = false then .ok e
  else match w.slots, varName given w.plat with
    | some s, some v => .ok (e.put v (entries s w.per w.ngpus w.tiles))
    | _, _ => .error .type

end Verif.GpuEnv
