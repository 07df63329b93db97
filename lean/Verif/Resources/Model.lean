/-
Model of `libensemble/resources/rset_resources.py` (class `RSetResources`) and of the parts of
`libensemble/resources/worker_resources.py` that track resource sets (class `ResourceManager`,
`WorkerResources.get_local_nodelist`, slots and GPU lists).

Conventions
* Nodes are arbitrary values of a type with decidable equality.
* Python exceptions are values: `none` of `Option`, or an error constructor.
* Counters are integers (`Int`), so that a wrong decrement cannot be hidden by truncated subtraction.
-/
namespace Verif.Res

/-- Python slice `a[i:j]` for `0 ≤ i ≤ j`. -/
def slice {α} (a : List α) (i j : Nat) : List α := (a.drop i).take (j - i)

/-- `RSetResources.best_split` (rset_resources.py:112-116); only called with `n > 0`. -/
def bestSplit {α} (a : List α) (n : Nat) : List (List α) :=
  let k := a.length / n
  let m := a.length % n
  (List.range n).map fun i => slice a (i * k + min i m) ((i + 1) * k + min (i + 1) m)

/-- Number of copies of node `i` made by `expand_list` (rset_resources.py:151, 155). -/
def repeats (nnodes nworkers i : Nat) : Nat :=
  if i < nworkers % nnodes then nworkers / nnodes + 1 else nworkers / nnodes

/-- `RSetResources.expand_list` (rset_resources.py:144-159): list of nodes with duplicates and the list of
local counts. -/
def expandList {α} (nnodes nworkers : Nat) (nodes : List α) : List α × List Nat :=
  ((nodes.zipIdx).flatMap (fun p => List.replicate (repeats nnodes nworkers p.2) p.1),
   (nodes.zipIdx).flatMap (fun p =>
      List.replicate (repeats nnodes nworkers p.2) (repeats nnodes nworkers p.2)))

/-- `RSetResources.get_split_list` (rset_resources.py:161-183) including the ZeroDivisionError of
`even_assignment` (135-142), which is `none`. -/
def splitList {α} (nrsets : Nat) (nodes : List α) : Option (List (List α) × List Nat) :=
  if nrsets = 0 ∨ nodes = [] then none
  else if nrsets ≥ nodes.length then
    let e := expandList nodes.length nrsets nodes
    some (bestSplit e.1 nrsets, e.2)
  else some (bestSplit nodes nrsets, List.replicate nrsets 1)

/-- One resource set: node group, slot in the group, has GPUs (rset_resources.py:32-37). -/
structure RS where
  group : Nat
  slot : Nat
  gpu : Bool
deriving DecidableEq, Repr

/-- The loop of `get_group_list` (rset_resources.py:100-109); the state is `node`, `group`, `slot`. -/
def groupLoop {α} [DecidableEq α] (gpn : Nat) (gpg : Option Nat) :
    List (List α) → List α → Nat → Nat → List RS
  | [], _, _, _ => []
  | x :: xs, node, group, slot =>
    if x ≠ node ∨ some slot = gpg then
      ⟨group + 1, 0, decide (0 < gpn)⟩ :: groupLoop gpn gpg xs x (group + 1) 1
    else
      ⟨group, slot, decide (slot < gpn)⟩ :: groupLoop gpn gpg xs node group (slot + 1)

/-- `get_group_list` (rset_resources.py:92-110).  `split_list[0]` of an empty list is an IndexError; the
split list is never empty (`splitList` has length `nrsets > 0`). -/
def groupList {α} [DecidableEq α] (split : List (List α)) (gpn : Nat) (gpg : Option Nat) : List RS :=
  match split with
  | [] => []
  | x :: _ => groupLoop gpn gpg split x 1 0

/-- `get_rsets_on_a_node` (rset_resources.py:118-127): division rounded up. -/
def rsetsOnNode (nrsets nnodes : Nat) : Nat := nrsets / nnodes + (if nrsets % nnodes > 0 then 1 else 0)

/-- What the scheduler and the manager read from a `ResourceManager` object
(rset_resources.py:57-75, worker_resources.py:50-71).
Simplification: processor and core counts are not part of this record (see the allocation support model). -/
structure RM where
  rsets : List RS
  assigned : List (Option Nat)      -- `none` is -1
  rsetsFree : Int
  gpuFree : Int
  nongpuFree : Int
  rsetsPerNode : Nat
  gpuPerNode : Nat
  nongpuPerNode : Nat
  numGroups : Nat
deriving DecidableEq, Repr

def RM.total (rm : RM) : Nat := rm.rsets.length
/-- rset_resources.py:74-75. -/
def RM.totalGpu (rm : RM) : Nat := rm.rsets.countP (·.gpu)
def RM.totalNongpu (rm : RM) : Nat := rm.rsets.countP (fun r => !r.gpu)

/-- `ResourceManager.__init__` (worker_resources.py:34-71, rset_resources.py:57-75). `gpn` is
`gpus_avail_per_node`, `gpg` is `gpus_per_group`; `none` is the ZeroDivisionError of `splitList`. -/
def mkRM {α} [DecidableEq α] (nrsets : Nat) (nodes : List α) (gpn : Nat) (gpg : Option Nat) : Option RM :=
  (splitList nrsets nodes).map fun (split, _) =>
    let rs := groupList split gpn gpg
    let rpn := rsetsOnNode nrsets nodes.length
    { rsets := rs
      assigned := List.replicate rs.length none
      rsetsFree := rs.length
      gpuFree := rs.countP (·.gpu)
      nongpuFree := rs.countP (fun r => !r.gpu)
      rsetsPerNode := rpn
      gpuPerNode := min gpn rpn
      nongpuPerNode := rpn - min gpn rpn
      numGroups := (rs.getLast?.map (·.group)).getD 0 }

/-- GPU flag of a resource set (`self.rsets["gpus"][i]`). -/
def RM.isGpu (rm : RM) (i : Nat) : Bool := ((rm.rsets[i]?).map (·.gpu)).getD false

/-- Loop of `assign_rsets` over the team with the owners read before the loop
(worker_resources.py:76-88).  A set owned by another worker is skipped: the exception of line 86 is
constructed but not raised. -/
def assignLoop (w : Nat) : List (Nat × Option Nat) → RM → RM
  | [], rm => rm
  | (i, owner) :: rest, rm =>
    match owner with
    | none =>
      assignLoop w rest { rm with
        assigned := rm.assigned.set i (some w)
        rsetsFree := rm.rsetsFree - 1
        gpuFree := if rm.isGpu i then rm.gpuFree - 1 else rm.gpuFree
        nongpuFree := if rm.isGpu i then rm.nongpuFree else rm.nongpuFree - 1 }
    | some _ => assignLoop w rest rm

/-- `assign_rsets` (worker_resources.py:73-88); `none` is numpy's IndexError for a set that does not exist.
Team members are natural numbers: negative indices are not modelled. -/
def assignRsets (rm : RM) (team : List Nat) (w : Nat) : Option RM :=
  if team.all (fun i => decide (i < rm.assigned.length)) then
    some (assignLoop w (team.map (fun i => (i, (rm.assigned[i]?).getD none))) rm)
  else none

/-- `free_rsets(worker)` (worker_resources.py:90-102). -/
def freeRsets (rm : RM) (w : Nat) : RM :=
  let idx := (List.range rm.assigned.length).filter (fun i => decide (rm.assigned[i]? = some (some w)))
  { rm with
    assigned := rm.assigned.map (fun o => if o = some w then none else o)
    rsetsFree := rm.rsetsFree + idx.length
    gpuFree := rm.gpuFree + (idx.countP (fun i => rm.isGpu i) : Nat)
    nongpuFree := rm.nongpuFree + (idx.countP (fun i => !rm.isGpu i) : Nat) }

/-- `free_rsets()` without argument (worker_resources.py:92-96). -/
def freeAll (rm : RM) : RM :=
  { rm with
    assigned := rm.assigned.map (fun _ => none)
    rsetsFree := rm.total, gpuFree := rm.totalGpu, nongpuFree := rm.totalNongpu }

/-- `get_index_list` (worker_resources.py:104-119): loop over workers `i, i+1, …` (n of them). -/
def indexLoop (nrsets : Nat) (zero : List Nat) : Nat → Nat → Nat → List (Option Nat)
  | 0, _, _ => []
  | n + 1, i, index =>
    if i ∈ zero then none :: indexLoop nrsets zero n (i + 1) index
    else (if index ≥ nrsets then none else some index) :: indexLoop nrsets zero n (i + 1) (index + 1)

def indexList (nworkers nrsets : Nat) (zero : List Nat) : List (Option Nat) :=
  indexLoop nrsets zero nworkers 1 0

/-- Entries appended to `slots[node]` by `get_local_nodelist` (worker_resources.py:371-380) for one resource
set: (node, slot) pairs. -/
def localSlots {α} (split : List (List α)) (rpn : Nat) (i : Nat) : List (α × Nat) :=
  match split[i]? with
  | none => []
  | some nodes =>
    if nodes.length > 1 then nodes.map (fun x => (x, 0))
    else match nodes with
      | [] => []
      | x :: _ => [(x, i % rpn)]

/-- Slots of a worker's team on a given node (worker_resources.py:367-382). -/
def slotsOn {α} [DecidableEq α] (split : List (List α)) (rpn : Nat) (team : List Nat) (node : α) : List Nat :=
  (team.flatMap (localSlots split rpn)).filterMap (fun p => if p.1 = node then some p.2 else none)

/-- `gpus_per_rset_per_node` (rset_resources.py:66, 77). -/
def gpusPerRset (gpn rpn : Nat) : Nat := if min gpn rpn = 0 then 0 else gpn / min gpn rpn

/-- GPU numbers listed for a list of slots (`get_slots_as_string`, worker_resources.py:220-223). -/
def gpuIds (n : Nat) (slots : List Nat) (limit : Option Nat) : List Nat :=
  let l := slots.flatMap (fun i => List.range' (i * n) n)
  match limit with
  | none => l
  | some k => l.take k

end Verif.Res
