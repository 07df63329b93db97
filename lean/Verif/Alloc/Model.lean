import Verif.History.Model
import Verif.Scheduler.Model
/-
Model of `libensemble/tools/alloc_support.py` (class `AllocSupport`) and of the bundled allocation functions
in `libensemble/alloc_funcs/`.

Conventions
* `H` as the allocation function sees it is the list of visible rows (`trim_H`) plus the list of columns.
* A boolean mask over `H` is the increasing list of the row numbers where it holds.
* A Python dictionary is an association list in insertion order; assigning an existing key keeps its place.
* Exceptions are values of `AErr`.
* Numbers of resource sets, processors and GPUs asked for are natural numbers.
* Not modelled: `persis_info` entries of single workers, `batch_size`, `gen_count` and the other entries of
  `libE_info` that are only passed on to the user function; log messages.
-/
namespace Verif.Alloc
open Verif.History Verif.Res Verif.Sched

/-- Message tags used in work orders (message_numbers.py:9-16). -/
def EVAL_SIM : Nat := 1
def EVAL_GEN : Nat := 2
def STOP_TAG : Nat := 3
def PERSIS_STOP : Nat := 4

/-- One row of the worker table `W` (manager.py:160-168). -/
structure Wrk where
  id : Nat
  genWorker : Bool := false
  active : Nat := 0
  persis : Nat := 0
  activeRecv : Bool := false
  genStarted : Int := 0
  zrw : Bool := false
deriving DecidableEq, Repr

/-- A work order.  `persistent` tells whether the key is in `libE_info` (its value is never read by the manager),
`activeRecv` is the entry `active_recv` of `libE_info` if there is one, `team` the entry `rset_team`
(`none`: no entry or `None`). -/
structure Work where
  tag : Nat
  fields : List Field
  rows : List Nat
  persistent : Bool := false
  activeRecv : Option Bool := none
  team : Option (List Nat) := none
deriving DecidableEq, Repr

/-- `_WorkerIndexer.__getitem__` (utils/misc.py:35-39): position of worker `w` in a list of `n` entries.
Without an additional worker the position is `w - 1`, and Python reads position -1 from the end. -/
def wPos (gom : Bool) (n w : Nat) : Option Nat :=
  if gom then (if w < n then some w else none)
  else if w = 0 then (if 0 < n then some (n - 1) else none)
  else if w - 1 < n then some (w - 1) else none

inductive AErr
  | insufficientFree          -- InsufficientFreeResources (caught by the bundled functions)
  | insufficientResources     -- InsufficientResourcesError
  | allocException            -- AllocException
  | indexError
  | keyError
  | attributeError
  | emptyMax                  -- ValueError of np.max on an empty array
  | valueError                -- other ValueErrors of numpy
  | assertion
  | internal (e : SErr)
deriving DecidableEq, Repr

def AErr.ofS : SErr → AErr
  | .insufficientFree => .insufficientFree
  | .insufficientResources => .insufficientResources
  | e => .internal e

/-- The entries of `persis_info` that the bundled functions read or write. -/
structure PInfo where
  nextToGive : Option Nat := none
  totalGenCalls : Option Nat := none
  numGensStarted : Nat := 0
  genStarted : Bool := false
  sampleDone : Bool := false
  firstCall : Bool := true
  samplesInH0 : Nat := 0
  genResources : Nat := 0
  genUseGpus : Option Bool := none
  genNumProcs : Option Nat := none
  genNumGpus : Option Nat := none
deriving DecidableEq, Repr

/-- What an `AllocSupport` object and an allocation function can read, apart from `persis_info`.
`ppr`, `gpr` are `procs_per_rset`, `gpus_per_rset` of the resource manager. -/
structure Ctx where
  W : List Wrk
  gom : Bool                       -- gen_on_manager
  fields : List Field              -- H.dtype.names
  H : List Row
  manage : Bool                    -- libE_info["use_resource_sets"]
  rm : Option RM                   -- Resources.resources.resource_manager
  ord : List Nat → List Nat        -- iteration order of Python sets, see Scheduler/Model
  ppr : Nat
  gpr : Nat
  simMaxGiven : Bool               -- libE_info["sim_max_given"]
  anyIdle : Bool                   -- libE_info["any_idle_workers"]
  genDefProcs : Nat                -- libE_info["gen_num_procs"]
  genDefGpus : Nat
  ugCol : Option Field := none     -- the column `use_gpus`, if there is one
  simIn : List Field               -- sim_specs["in"]
  genIn : List Field               -- gen_specs["in"]
  persisIn : List Field            -- gen_specs["persis_in"]

/-- `AllocSupport.assign_resources` (alloc_support.py:62-88). -/
def assignResources (c : Ctx) (s : Sched) (req : Nat) (useGpus : Option Bool) (params : List Nat) :
    Sched × Except AErr (Option (List Nat)) :=
  match c.rm with
  | none => (s, .ok none)
  | some rm =>
    let second := fun s => match Sched.assign rm c.ord s req useGpus params with
      | (s', .ok team) => (s', Except.ok (some team))
      | (s', .error e) => (s', .error (AErr.ofS e))
    if useGpus = none then
      match Sched.assign rm c.ord s req (some false) params with
      | (s', .ok team) => (s', .ok (some team))
      | (s', .error .insufficientFree) => second s'
      | (s', .error .insufficientResources) => second s'
      | (s', .error e) => (s', .error (.internal e))
    else second s

/-- `AllocSupport.avail_worker_ids` (alloc_support.py:90-137).  `persistent=False` is `some 0`. -/
def availIds (W : List Wrk) (persistent : Option Nat) (activeRecv : Bool) (zrw gen : Option Bool) :
    Except AErr (List Nat) :=
  if activeRecv = true ∧ (persistent = none ∨ persistent = some 0) then .error .allocException
  else
    let noZrw := !W.any (·.zrw)
    let noGen := !W.any (·.genWorker)
    .ok ((W.filter fun k =>
      (if activeRecv then k.activeRecv else decide (k.active = 0)) &&
      (match persistent with | none => true | some p => decide (k.persis = p)) &&
      (noZrw || match zrw with | none => true | some b => decide (k.zrw = b)) &&
      (noGen || match gen with | none => true | some b => decide (k.genWorker = b))).map (·.id))

/-- `count_gens` (alloc_support.py:139-141). -/
def countGens (W : List Wrk) : Nat := W.countP fun k => decide (k.active = EVAL_GEN)
/-- `test_any_gen` (alloc_support.py:143-145). -/
def testAnyGen (W : List Wrk) : Bool := W.any fun k => decide (k.active = EVAL_GEN)
/-- `count_persis_gens` (alloc_support.py:147-149). -/
def countPersisGens (W : List Wrk) : Nat := W.countP fun k => decide (k.persis = EVAL_GEN)

/-- Number in a cell; a vector cell or a negative number is read as 0 (see the conventions). -/
def Val.nat : Val → Nat
  | .s x => x.toNat
  | .v _ => 0

/-- `_convert_to_rsets` (alloc_support.py:412-426); the number of units is also appended to `user_params`. -/
def convertToRsets (units perRset : Nat) : Except AErr Nat :=
  if units > 0 then
    if perRset = 0 then .error .insufficientResources
    else .ok (units / perRset + (if units % perRset > 0 then 1 else 0))
  else .ok 0

/-- Values of a column in the given rows (`H[H_rows][field]`); `none` is numpy's IndexError. -/
def column (H : List Row) (f : Field) (rows : List Nat) : Option (List Nat) :=
  rows.mapM fun i => (H[i]?).map fun r => Val.nat (r f)

/-- `np.max` of a column. -/
def colMax (H : List Row) (f : Field) (rows : List Nat) : Except AErr Nat :=
  match column H f rows with
  | none => .error .indexError
  | some [] => .error .emptyMax
  | some (x :: xs) => .ok (maxNat (x :: xs))

/-- `_convert_rows_to_rsets` (alloc_support.py:405-410): sets, and the number appended to `user_params`. -/
def convertRows (H : List Row) (f : Field) (rows : List Nat) (perRset : Nat) : Except AErr (Nat × Nat) :=
  match colMax H f rows with
  | .error e => .error e
  | .ok u => match convertToRsets u perRset with
    | .error e => .error e
    | .ok n => .ok (n, u)

/-- The column `use_gpus` over the given rows (alloc_support.py:163-167). -/
def useGpusOf (c : Ctx) (rows : List Nat) : Except AErr (Option Bool) :=
  match c.ugCol with
  | none => .ok none
  | some f =>
    if rows.any (fun i => decide (c.H.length ≤ i)) then .error .indexError
    else .ok (some (rows.any fun i => ((c.H[i]?).map (·.flag f)).getD false))

/-- Resource sets wanted by the columns `resource_sets` or `num_procs` (alloc_support.py:154-162). -/
def reqFirst (c : Ctx) (rows : List Nat) : Except AErr (Nat × List Nat) :=
  if .resourceSets ∈ c.fields then
    match colMax c.H .resourceSets rows with
    | .error e => .error e
    | .ok n => .ok (n, [])
  else if .numProcs ∈ c.fields then
    if c.rm.isNone then .error .attributeError
    else match convertRows c.H .numProcs rows c.ppr with
      | .error e => .error e
      | .ok (n, u) => .ok (n, [u])
  else .ok (1, [])

/-- `_req_resources_sim` (alloc_support.py:151-176): (sets, type, user_params). -/
def reqSim (c : Ctx) (rows : List Nat) : Except AErr (Nat × Option Bool × List Nat) :=
  match reqFirst c rows with
  | .error e => .error e
  | .ok (n, ps) => match useGpusOf c rows with
    | .error e => .error e
    | .ok ug =>
      if .numGpus ∈ c.fields then
        if c.rm.isNone then .error .attributeError
        else match convertRows c.H .numGpus rows c.gpr with
          | .error e => .error e
          | .ok (g, u) => .ok (max n g, if g > 0 then some true else ug, ps ++ [u])
      else .ok (n, ug, ps)

/-- `_req_resources_gen` (alloc_support.py:178-200): (sets, type, user_params). -/
def reqGen (c : Ctx) (p : PInfo) : Except AErr (Nat × Option Bool × List Nat) :=
  if p.genResources > 0 then .ok (p.genResources, p.genUseGpus, [])
  else
    let np := p.genNumProcs.getD c.genDefProcs
    let ng := p.genNumGpus.getD c.genDefGpus
    let first : Except AErr (Nat × List Nat) :=
      if np > 0 then
        if c.rm.isNone then .error .attributeError
        else match convertToRsets np c.ppr with
          | .error e => .error e
          | .ok n => .ok (n, [np])
      else .ok (0, [])
    match first with
    | .error e => .error e
    | .ok (n, ps) =>
      if ng > 0 then
        if c.rm.isNone then .error .attributeError
        else match convertToRsets ng c.gpr with
          | .error e => .error e
          | .ok g => .ok (max n g, if g > 0 then some true else p.genUseGpus, ps ++ [ng])
      else .ok (n, p.genUseGpus, ps)

/-- `_update_rset_team` (alloc_support.py:202-217): the entry `rset_team`; `given` is the team passed by the caller
(an empty one counts as not given).  `rows = none` for generator work. -/
def updateTeam (c : Ctx) (p : PInfo) (s : Sched) (wid : Nat) (rows : Option (List Nat)) (given : Option (List Nat)) :
    Sched × Except AErr (Option (List Nat)) :=
  if c.manage = true ∧ (given = none ∨ given = some []) then
    match wPos c.gom c.W.length wid with
    | none => (s, .error .indexError)
    | some k =>
      if ((c.W[k]?).map (·.persis)).getD 0 ≠ 0 then (s, .ok (some []))
      else
        match (match rows with | some rs => reqSim c rs | none => reqGen c p) with
        | .error e => (s, .error e)
        | .ok (n, g, ps) => assignResources c s n g ps
  else (s, .ok given)

/-- `sim_work` (alloc_support.py:219-253). -/
def simWork (c : Ctx) (p : PInfo) (s : Sched) (wid : Nat) (rows : List Nat) (persistent : Bool) :
    Sched × Except AErr Work :=
  match updateTeam c p s wid (some rows) none with
  | (s', .error e) => (s', .error e)
  | (s', .ok team) =>
    (s', .ok { tag := EVAL_SIM, fields := c.simIn.eraseDups, rows := rows, persistent := persistent, team := team })

/-- `gen_work` (alloc_support.py:255-293). -/
def genWork (c : Ctx) (p : PInfo) (s : Sched) (wid : Nat) (fields : List Field) (rows : List Nat)
    (persistent : Bool) (activeRecv : Option Bool) (given : Option (List Nat)) : Sched × Except AErr Work :=
  match updateTeam c p s wid none given with
  | (s', .error e) => (s', .error e)
  | (s', .ok team) =>
    (s', .ok { tag := EVAL_GEN, fields := fields.eraseDups, rows := rows, persistent := persistent,
               activeRecv := activeRecv, team := team })

/-- Row numbers satisfying a predicate, in increasing order (`np.nonzero`, `np.where`). -/
def rowsWhere (H : List Row) (q : Row → Bool) : List Nat :=
  (List.range H.length).filter fun i => ((H[i]?).map q).getD false

/-- `all_sim_started` (alloc_support.py:316-327), without `low_bound`. -/
def allSimStarted (H : List Row) (flt : Row → Bool) : Bool :=
  H.all fun r => !(flt r && !r.flag .cancelRequested) || r.flag .simStarted

/-- `all_sim_ended` (alloc_support.py:329-340), without `low_bound`. -/
def allSimEnded (H : List Row) (flt : Row → Bool) : Bool :=
  H.all fun r => !(flt r && !(r.flag .cancelRequested && !r.flag .simStarted)) || r.flag .simEnded

/-- `all_gen_informed` (alloc_support.py:342-353), without `low_bound`. -/
def allGenInformed (H : List Row) (flt : Row → Bool) : Bool :=
  H.all fun r => !(flt r && !(r.flag .cancelRequested && !r.flag .simStarted)) || r.flag .genInformed

/-- Priority of row `i`; simplification: priorities are integers (no NaN). -/
def prio (H : List Row) (i : Nat) : Int :=
  match H[i]? with
  | none => 0
  | some r => match r .priority with | .s x => x | .v _ => 0

/-- First element with the largest priority (`np.argmax`). -/
def argmaxPrio (H : List Row) : Nat → List Nat → Nat
  | best, [] => best
  | best, i :: is => if prio H i > prio H best then argmaxPrio H i is else argmaxPrio H best is

/-- `points_by_priority` (alloc_support.py:355-370); `pts` are the available rows in increasing order.  With no
available row numpy raises. -/
def pointsByPriority (fields : List Field) (H : List Row) (pts : List Nat) (batch : Bool) : Except AErr (List Nat) :=
  match pts with
  | [] => .error (if .priority ∈ fields then .emptyMax else .indexError)
  | i :: is =>
    if .priority ∈ fields then
      let best := argmaxPrio H i is
      if batch then .ok ((i :: is).filter fun j => decide (prio H j = prio H best)) else .ok [best]
    else .ok [i]

/-- `skip_canceled_points` (alloc_support.py:372-377): the new value of `next_to_give`. -/
def skipCanceled (H : List Row) (n : Nat) : Nat := n + ((H.drop n).takeWhile (·.flag .cancelRequested)).length

/-- Assignment to a dictionary key. -/
def dset {β} : List (Nat × β) → Nat → β → List (Nat × β)
  | [], k, v => [(k, v)]
  | (k', v') :: l, k, v => if k' = k then (k, v) :: l else (k', v') :: dset l k v

abbrev WorkD := List (Nat × Work)

/-- Rows cancelled by an allocation function together with its answer (work, persis_info, flag). -/
structure Answer where
  work : WorkD
  pinfo : PInfo
  flag : Bool
deriving DecidableEq, Repr

/-- Outcome of a loop that hands out work: state, work so far, exception that leaves the function. -/
structure LoopSt where
  s : Sched
  work : WorkD
  pts : List Nat
  gens : Nat
  p : PInfo

/-! ### give_sim_work_first (alloc_funcs/give_sim_work_first.py) -/

structure UserOpts where
  batchGive : Bool := false                 -- give_all_with_same_priority
  numActiveGens : Option Nat := none
  batchMode : Bool := false
  cancelTime : Option Int := none           -- cancel_sims_time
  activeRecvGen : Bool := false
  initSample : Nat := 0
  asyncReturn : Bool := false
  altType : Bool := false

/-- Loop of give_sim_work_first.py:68-76. -/
def gswfSims (c : Ctx) (batch : Bool) : List Nat → LoopSt → Except AErr LoopSt
  | [], st => .ok st
  | w :: ws, st =>
    match pointsByPriority c.fields c.H st.pts batch with
    | .error e => .error e
    | .ok ids =>
      match simWork c st.p st.s w ids false with
      | (s', .error .insufficientFree) => .ok { st with s := s' }
      | (_, .error e) => .error e
      | (s', .ok wk) =>
        let pts := st.pts.filter fun i => decide (i ∉ ids)
        let st := { st with s := s', work := dset st.work w wk, pts := pts }
        if pts.isEmpty then .ok st else gswfSims c batch ws st

/-- Loop of give_sim_work_first.py:78-93. -/
def gswfGens (c : Ctx) (o : UserOpts) : List Nat → LoopSt → Except AErr LoopSt
  | [], st => .ok st
  | w :: ws, st =>
    if st.gens ≥ o.numActiveGens.getD (st.gens + 1) then .ok st
    else if o.batchMode && !allSimEnded c.H (fun _ => true) then .ok st
    else
      match genWork c st.p st.s w c.genIn (if c.genIn.isEmpty then [] else List.range c.H.length) false none none with
      | (s', .error .insufficientFree) => .ok { st with s := s' }
      | (_, .error e) => .error e
      | (s', .ok wk) => gswfGens c o ws { st with s := s', work := dset st.work w wk, gens := st.gens + 1 }

/-- Rows cancelled by give_sim_work_first.py:45-51 at time `now`. -/
def cancelRows (H : List Row) (o : UserOpts) (now : Int) : List Nat :=
  match o.cancelTime with
  | none => []
  | some lim => rowsWhere H fun r => r.flag .simStarted && !r.flag .simEnded && !r.flag .cancelRequested &&
      decide ((match r .simStartedTime with | .s x => now - x | .v _ => 0) > lim)

/-- Rows waiting for evaluation: `~H["sim_started"] & ~H["cancel_requested"]`. -/
def waiting (H : List Row) : List Nat :=
  rowsWhere H fun r => !r.flag .simStarted && !r.flag .cancelRequested

def LoopSt.answer (st : LoopSt) (flag : Bool) : Answer := ⟨st.work, st.p, flag⟩

/-- `give_sim_work_first` (give_sim_work_first.py:9-95) on the history in which the rows `cancelRows` are already
marked.  (The manager model marks them first; they are all running, so nothing else depends on it.) -/
def giveSimWorkFirst (c : Ctx) (o : UserOpts) (p : PInfo) (s : Sched) : Except AErr Answer :=
  if c.simMaxGiven || !c.anyIdle then .ok ⟨[], p, false⟩
  else
    let pts := waiting c.H
    let st : LoopSt := ⟨s, [], pts, countGens c.W, p⟩
    let r : Except AErr LoopSt := if pts.isEmpty then
        match availIds c.W none false none (some true) with
        | .error e => .error e
        | .ok ws => gswfGens c o ws st
      else
        match availIds c.W none false none (some false) with
        | .error e => .error e
        | .ok ws => gswfSims c o.batchGive ws st
    r.map (·.answer false)

/-! ### fast_alloc (alloc_funcs/fast_alloc.py) -/

/-- Loop of fast_alloc.py:36-43. -/
def fastSims (c : Ctx) : List Nat → LoopSt → Except AErr LoopSt
  | [], st => .ok st
  | w :: ws, st =>
    match st.p.nextToGive with
    | none => .error .keyError
    | some n0 =>
      let n := skipCanceled c.H n0
      let st := { st with p := { st.p with nextToGive := some n } }
      if n < c.H.length then
        match simWork c st.p st.s w [n] false with
        | (s', .error .insufficientFree) => .ok { st with s := s' }
        | (_, .error e) => .error e
        | (s', .ok wk) =>
          fastSims c ws { st with s := s', work := dset st.work w wk, p := { st.p with nextToGive := some (n + 1) } }
      else fastSims c ws st

/-- Loop of fast_alloc.py:47-55. -/
def fastGens (c : Ctx) (o : UserOpts) : List Nat → LoopSt → Except AErr LoopSt
  | [], st => .ok st
  | w :: ws, st =>
    if w ∉ st.work.map (·.1) ∧ st.gens < o.numActiveGens.getD (st.gens + 1) then
      match genWork c st.p st.s w c.genIn (if c.genIn.isEmpty then [] else List.range c.H.length) false none none with
      | (s', .error .insufficientFree) => .ok { st with s := s' }
      | (_, .error e) => .error e
      | (s', .ok wk) =>
        match st.p.totalGenCalls with
        | none => .error .keyError
        | some t => fastGens c o ws
          { st with s := s', work := dset st.work w wk, gens := st.gens + 1, p := { st.p with totalGenCalls := some (t + 1) } }
    else fastGens c o ws st

/-- `give_sim_work_first` of fast_alloc.py:4-57. -/
def fastAlloc (c : Ctx) (o : UserOpts) (p : PInfo) (s : Sched) : Except AErr Answer :=
  if c.simMaxGiven || !c.anyIdle then .ok ⟨[], p, false⟩
  else
    match availIds c.W none false none (some false) with
    | .error e => .error e
    | .ok ws =>
      match fastSims c ws ⟨s, [], [], countGens c.W, p⟩ with
      | .error e => .error e
      | .ok st =>
        match st.p.nextToGive with
        | none => .error .keyError
        | some n =>
          if n ≥ c.H.length then
            match availIds c.W none false none (some true) with
            | .error e => .error e
            | .ok ws => (fastGens c o ws st).map (·.answer false)
          else .ok (st.answer false)

/-! ### ensure_one_active_gen and give_pregenerated_sim_work -/

/-- Loop of only_one_gen_alloc.py:25-33 and give_pregenerated_work.py:26-37 (the same text): no comparison with the
number of rows between `skip_canceled_points` and the work order. -/
def orderSims (c : Ctx) : List Nat → LoopSt → Except AErr LoopSt
  | [], st => .ok st
  | w :: ws, st =>
    match st.p.nextToGive with
    | none => .error .keyError
    | some n0 =>
      let n := skipCanceled c.H n0
      let st := { st with p := { st.p with nextToGive := some n } }
      match simWork c st.p st.s w [n] false with
      | (s', .error .insufficientFree) => .ok { st with s := s' }
      | (_, .error e) => .error e
      | (s', .ok wk) =>
        let st := { st with s := s', work := dset st.work w wk, p := { st.p with nextToGive := some (n + 1) } }
        if n + 1 ≥ c.H.length then .ok st else orderSims c ws st

/-- `ensure_one_active_gen` (only_one_gen_alloc.py:4-50). -/
def oneGenAlloc (c : Ctx) (p : PInfo) (s : Sched) : Except AErr Answer :=
  if c.simMaxGiven || !c.anyIdle then .ok ⟨[], p, false⟩
  else match p.nextToGive with
    | none => .error .keyError
    | some n =>
      if n < c.H.length then
        match availIds c.W none false none (some false) with
        | .error e => .error e
        | .ok ws => (orderSims c ws ⟨s, [], [], 0, p⟩).map (·.answer false)
      else if testAnyGen c.W then .ok ⟨[], p, false⟩
      else match availIds c.W none false none (some true) with
        | .error e => .error e
        | .ok [] => .error .indexError
        | .ok (w :: _) =>
          if !allSimEnded c.H (fun _ => true) then .ok ⟨[], p, false⟩
          else match genWork c p s w c.genIn (if c.genIn.isEmpty then [] else List.range c.H.length) false none none with
            | (_, .error .insufficientFree) => .ok ⟨[], p, false⟩
            | (_, .error e) => .error e
            | (_, .ok wk) => match p.totalGenCalls with
              | none => .error .keyError
              | some t => .ok ⟨[(w, wk)], { p with totalGenCalls := some (t + 1) }, false⟩

/-- `give_pregenerated_sim_work` (give_pregenerated_work.py:4-39). -/
def pregenAlloc (c : Ctx) (p : PInfo) (s : Sched) : Except AErr Answer :=
  if c.simMaxGiven || !c.anyIdle then .ok ⟨[], p, false⟩
  else
    let n := p.nextToGive.getD 0
    let p := { p with nextToGive := some n }
    if n ≥ c.H.length then .ok ⟨[], p, true⟩
    else match availIds c.W none false none (some false) with
      | .error e => .error e
      | .ok ws => (orderSims c ws ⟨s, [], [], 0, p⟩).map (·.answer false)

/-! ### only_persistent_gens (alloc_funcs/start_only_persistent.py) -/

/-- Points of generator `w` (`H["gen_worker"] == wid`). -/
def ofGen (w : Nat) (r : Row) : Bool := decide (r .genWorker = .s w)

/-- Loop of start_only_persistent.py:78-92.  An exception of `gen_work` is not caught there. -/
def opgReturns (c : Ctx) (o : UserOpts) (async : Bool) : List Nat → LoopSt → Except AErr LoopSt
  | [], st => .ok st
  | w :: ws, st =>
    let ids := rowsWhere c.H fun r => r.flag .simEnded && !r.flag .genInformed && ofGen w r
    if !ids.isEmpty && (async || allSimEnded c.H (ofGen w)) then
      match genWork c st.p st.s w c.persisIn ids true (some o.activeRecvGen) none with
      | (_, .error e) => .error e
      | (s', .ok wk) => opgReturns c o async ws { st with s := s', work := dset st.work w wk }
    else opgReturns c o async ws st

/-- Loop of start_only_persistent.py:102-118. -/
def opgSims (c : Ctx) (o : UserOpts) : List Nat → LoopSt → Except AErr LoopSt
  | [], st => .ok st
  | w :: ws, st =>
    if st.pts.isEmpty then .ok st
    else match pointsByPriority c.fields c.H st.pts o.batchGive with
      | .error e => .error e
      | .ok ids =>
        match simWork c st.p st.s w ids o.altType with
        | (s', .error .insufficientFree) => .ok { st with s := s' }
        | (_, .error e) => .error e
        | (s', .ok wk) =>
          opgSims c o ws { st with s := s', work := dset st.work w wk, pts := st.pts.filter fun i => decide (i ∉ ids) }

/-- Loop of start_only_persistent.py:124-140. -/
def opgGens (c : Ctx) (o : UserOpts) : List Nat → LoopSt → Except AErr LoopSt
  | [], st => .ok st
  | w :: ws, st =>
    if st.gens < o.numActiveGens.getD 1 then
      match genWork c st.p st.s w c.genIn (List.range c.H.length) true (some o.activeRecvGen) none with
      | (s', .error .insufficientFree) => .ok { st with s := s' }
      | (_, .error e) => .error e
      | (s', .ok wk) => opgGens c o ws
        { st with s := s', work := dset st.work w wk, gens := st.gens + 1,
                  p := { st.p with numGensStarted := st.p.numGensStarted + 1 } }
    else opgGens c o ws st

/-- `list(set(a) | set(b))` (start_only_persistent.py:98-101); `ord` is the iteration order of the set. -/
def unionIds (ord : List Nat → List Nat) (a b : List Nat) : List Nat := ord (a ++ b).eraseDups

/-- The workers used for simulations (start_only_persistent.py:96-101). -/
def opgSimWorkers (c : Ctx) (o : UserOpts) : Except AErr (List Nat) :=
  if o.altType then
    match availIds c.W (some 0) false (some false) none, availIds c.W (some EVAL_SIM) false (some false) none with
    | .ok a, .ok b => .ok (unionIds c.ord a b)
    | .error e, _ => .error e
    | _, .error e => .error e
  else availIds c.W (some 0) false (some false) (some false)

/-- `only_persistent_gens` (start_only_persistent.py:7-142). -/
def onlyPersistentGens (c : Ctx) (o : UserOpts) (p : PInfo) (s : Sched) : Except AErr Answer :=
  if c.simMaxGiven || !c.anyIdle then .ok ⟨[], p, false⟩
  else
    let gens := countPersisGens c.W
    let async := o.asyncReturn && decide (c.H.countP (·.flag .simEnded) ≥ o.initSample)
    if gens < p.numGensStarted then .ok ⟨[], p, true⟩
    else match availIds c.W (some EVAL_GEN) o.activeRecvGen none none with
      | .error e => .error e
      | .ok ws => match opgReturns c o async ws ⟨s, [], waiting c.H, gens, p⟩ with
        | .error e => .error e
        | .ok st => match opgSimWorkers c o with
          | .error e => .error e
          | .ok ws => match opgSims c o ws st with
            | .error e => .error e
            | .ok st =>
              if st.pts.isEmpty then
                match availIds c.W (some 0) false (some true) (some true) with
                | .error e => .error e
                | .ok ws => (opgGens c o ws st).map (·.answer false)
              else .ok (st.answer false)

/-! ### persistent_aposmm_alloc (alloc_funcs/persistent_aposmm_alloc.py) -/

/-- Loop of persistent_aposmm_alloc.py:43-54.  `sampleDone` is tested and set in the loop. -/
def apoReturns (c : Ctx) (initSample : Nat) : List Nat → LoopSt → Except AErr LoopSt
  | [], st => .ok st
  | w :: ws, st =>
    if st.p.sampleDone || decide (c.H.countP (·.flag .simEnded) ≥ initSample + st.p.samplesInH0) then
      let st := { st with p := { st.p with sampleDone := true } }
      let ids := rowsWhere c.H fun r => r.flag .simEnded && !r.flag .genInformed
      if ids.isEmpty then apoReturns c initSample ws st
      else match genWork c st.p st.s w c.persisIn ids true none none with
        | (_, .error e) => .error e
        | (s', .ok wk) => apoReturns c initSample ws { st with s := s', work := dset st.work w wk }
    else apoReturns c initSample ws st

/-- Loop of persistent_aposmm_alloc.py:56-67. -/
def apoSims (c : Ctx) : List Nat → LoopSt → Except AErr LoopSt
  | [], st => .ok st
  | w :: ws, st =>
    match st.p.nextToGive with
    | none => .error .keyError
    | some n0 =>
      let n := skipCanceled c.H n0
      let st := { st with p := { st.p with nextToGive := some n } }
      if n < c.H.length then
        match simWork c st.p st.s w [n] false with
        | (s', .error .insufficientFree) => .ok { st with s := s' }
        | (_, .error e) => .error e
        | (s', .ok wk) =>
          let st := { st with s := s', work := dset st.work w wk, p := { st.p with nextToGive := some (n + 1) } }
          if n + 1 ≥ c.H.length then .ok st else apoSims c ws st
      else apoSims c ws st

/-- Start of the generator (persistent_aposmm_alloc.py:69-80): only the first worker that can be given resources;
a worker without an entry in `persis_info` is not modelled. -/
def apoStart (c : Ctx) : List Nat → LoopSt → Except AErr LoopSt
  | [], st => .ok st
  | w :: _, st =>
    match genWork c st.p st.s w c.genIn (List.range c.H.length) true none none with
    | (s', .error .insufficientFree) => .ok { st with s := s' }
    | (_, .error e) => .error e
    | (s', .ok wk) => .ok { st with s := s', work := dset st.work w wk, p := { st.p with genStarted := true } }

/-- First call (persistent_aposmm_alloc.py:30-37); `localPt` is the column `local_pt`. -/
def apoFirst (c : Ctx) (localPt : Field) (p : PInfo) : Except AErr PInfo :=
  if allSimStarted c.H (fun _ => true) && allSimEnded c.H (fun _ => true) && allGenInformed c.H (fun _ => true) then
    .ok { p with samplesInH0 := c.H.countP (fun r => !r.flag localPt), nextToGive := some c.H.length, firstCall := false }
  else .error .assertion

/-- The part after the first-call test (persistent_aposmm_alloc.py:42-82). -/
def apoBody (c : Ctx) (initSample : Nat) (p : PInfo) (s : Sched) : Except AErr Answer :=
  match availIds c.W (some EVAL_GEN) false none none with
  | .error e => .error e
  | .ok ws => match apoReturns c initSample ws ⟨s, [], [], 0, p⟩ with
    | .error e => .error e
    | .ok st => match availIds c.W (some 0) false none (some false) with
      | .error e => .error e
      | .ok ws => match apoSims c ws st with
        | .error e => .error e
        | .ok st =>
          if st.p.genStarted then .ok (st.answer false)
          else match availIds c.W (some 0) false none (some true) with
            | .error e => .error e
            | .ok ws => (apoStart c ws st).map (·.answer false)

/-- `persistent_aposmm_alloc` (persistent_aposmm_alloc.py:7-82). -/
def aposmmAlloc (c : Ctx) (localPt : Field) (initSample : Nat) (p : PInfo) (s : Sched) : Except AErr Answer :=
  if c.simMaxGiven || !c.anyIdle then .ok ⟨[], p, false⟩
  else if p.firstCall then
    match apoFirst c localPt p with
    | .error e => .error e
    | .ok p => apoBody c initSample p s
  else if countPersisGens c.W = 0 then .ok ⟨[], p, true⟩
  else apoBody c initSample p s

end Verif.Alloc
