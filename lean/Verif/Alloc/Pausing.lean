import Verif.Alloc.More

/-!
# Allocation with pausing (alloc_funcs/fast_alloc_and_pausing.py)

Several rows of the history are the components of one point (column `pt_id`).  The function gives single rows to idle workers, stops
giving the rows of points found to be bad, and starts generators.

Simplifications: whether the component `f_i` of a row is a NaN and the value of `combine_component_func` on the rows of a point are
functions of the rows; the latter is an integer or NaN (`none`).  Which element `set.pop` takes is a function of the set.
`total_gen_calls`, `last_worker` and what is passed to the generator from `persis_info` are left out.
-/

namespace Verif.Alloc
open Verif.History Verif.Res Verif.Sched

/-- `alloc_specs["user"]`, `gen_specs["user"]` and the columns used. -/
structure PsOpts where
  ptId : Field                         -- the column `pt_id`
  paused : Field                       -- the column `paused`
  localPt : Option Field := none       -- the column `local_pt`, if there is one
  isNan : Row → Bool                   -- np.isnan(H["f_i"])
  comb : List Row → Option Int         -- combine_component_func
  stopNan : Bool := false              -- stop_on_NaNs
  stopPartial : Bool := false          -- stop_partial_fvec_eval
  single : Bool := false               -- single_component_at_a_time
  batch : Bool := false                -- batch_mode
  numActive : Option Nat := none       -- num_active_gens
  pop : List Nat → Nat                 -- the element taken by set.pop

/-- The entries of `persis_info` kept by the function. -/
structure PsInfo where
  need : List Nat := []                -- need_to_give
  hLen : Nat := 0                      -- H_len
  already : List Int := []             -- already_paused
  hasNan : List Int := []              -- has_nan
  complete : List Int := []            -- complete
  localIds : List Int := []            -- local_pt_ids
  best : Option Int := none            -- best_complete_val, initially infinite
  lastSize : Option Nat := none        -- last_size
deriving DecidableEq, Repr

/-- The point of a row. -/
def ptOf (o : PsOpts) (r : Row) : Int := match r o.ptId with | .s x => x | .v _ => 0

/-- The rows of a point (`H[inds_of_pt_ids[pt_id]]`; the stored masks are those of the present history, line 41-44). -/
def ptRows (H : List Row) (o : PsOpts) (x : Int) : List Row := H.filter fun r => decide (ptOf o r = x)

/-- fast_alloc_and_pausing.py:38-44: rows added since the last call become rows to be given. -/
def psUpdate (H : List Row) (q : PsInfo) : PsInfo :=
  if H.length ≠ q.hLen then
    let new := (H.drop q.hLen).map fun r => Val.nat (r .simId)
    { q with need := q.need ++ new.eraseDups.filter (· ∉ q.need), hLen := H.length }
  else q

/-- `min(best_complete_val, values)`; a NaN is not smaller. -/
def minBest (b : Option Int) (v : Option Int) : Option Int :=
  match b, v with
  | b, none => b
  | none, some v => some v
  | some b, some v => some (if v < b then v else b)

/-- Points not yet known to be complete or to have a NaN (line 64). -/
def psOpen (H : List Row) (o : PsOpts) (q : PsInfo) : List Int :=
  (H.map (ptOf o)).eraseDups.filter fun x => decide (x ∉ q.hasNan ∧ x ∉ q.complete)

/-- Line 71. -/
def ptNan (H : List Row) (o : PsOpts) (x : Int) : Bool := (ptRows H o x).any o.isNan
/-- Line 75. -/
def ptLocal (H : List Row) (o : PsOpts) (x : Int) : Bool :=
  match o.localPt, ptRows H o x with
  | some f, r :: _ => r.flag f
  | _, _ => false
/-- Line 78. -/
def ptEnded (H : List Row) (o : PsOpts) (x : Int) : Bool := (ptRows H o x).all (·.flag .simEnded)

/-- Entries of `partial_fvals` (line 66, 85); they are 0 for points found to have a NaN or to be complete. -/
def ptVal (H : List Row) (o : PsOpts) (x : Int) : Option Int :=
  if ptNan H o x || ptEnded H o x then some 0 else o.comb (ptRows H o x)

/-- Lines 90-96. -/
def psWorse (H : List Row) (o : PsOpts) (q : PsInfo) (x : Int) : Bool :=
  match ptVal H o x, q.best with
  | some v, some b => decide (x ∉ q.localIds ∧ x ∉ q.complete ∧ b < v)
  | _, _ => false

/-- Lines 69-85: bookkeeping of the points. -/
def psNote (H : List Row) (o : PsOpts) (q : PsInfo) : PsInfo :=
  let pts := psOpen H o q
  let done := pts.filter fun x => !ptNan H o x && ptEnded H o x
  { q with
    hasNan := q.hasNan ++ pts.filter fun x => ptNan H o x
    localIds := q.localIds ++ pts.filter fun x => !ptNan H o x && ptLocal H o x
    complete := q.complete ++ done
    best := (done.map fun x => o.comb (ptRows H o x)).foldl minBest q.best }

/-- Lines 87-99: the points worse than the best complete one. -/
def psLate (H : List Row) (o : PsOpts) (q : PsInfo) : List Int :=
  if (psNote H o q).complete ≠ [] ∧ 1 < (psOpen H o q).length then (psOpen H o q).filter fun x => psWorse H o (psNote H o q) x
  else []

/-- The points to be paused in a pass, and the bookkeeping after it (fast_alloc_and_pausing.py:50-99). -/
def psFind (H : List Row) (o : PsOpts) (q : PsInfo) : List Int × PsInfo :=
  ((if o.stopNan then (H.filter o.isNan).map (ptOf o) else []) ++ (if o.stopPartial then psLate H o q else []),
    if o.stopPartial then psNote H o q else q)

/-- The rows of the points `ids` (`np.where(np.isin(H["pt_id"], ids))`). -/
def psRows (H : List Row) (o : PsOpts) (ids : List Int) : List Nat := rowsWhere H fun r => decide (ptOf o r ∈ ids)

/-- fast_alloc_and_pausing.py:101-106.  The rows whose `paused` is set, and the bookkeeping. -/
def psPause (H : List Row) (o : PsOpts) (ids : List Int) (q : PsInfo) : List Nat × PsInfo :=
  if ∀ x ∈ ids, x ∈ q.already then ([], q)
  else (psRows H o ids, { q with already := q.already ++ ids, need := q.need.filter (· ∉ psRows H o ids) })

/-- The element removed by `set.pop` from a non-empty set: any. -/
def popOf (o : PsOpts) (l : List Nat) : Nat := if o.pop l ∈ l then o.pop l else l.headD 0

/-- State of the loops. -/
structure PsSt where
  s : Sched
  work : WorkD
  q : PsInfo
  marks : List Nat                     -- rows whose `paused` was set in this call
  gens : Nat

/-- Loop of fast_alloc_and_pausing.py:49-119.  (When the pause leaves nothing to give, the next pass ends the loop.) -/
def psSims (c : Ctx) (o : PsOpts) (p : PInfo) : List Nat → PsSt → Except AErr PsSt
  | [], st => .ok st
  | w :: ws, st =>
    if st.q.need = [] then .ok st
    else
      let f := psFind c.H o st.q
      let g := psPause c.H o f.1 f.2
      let st := { st with q := g.2, marks := st.marks ++ g.1 }
      if g.2.need = [] then .ok st
      else
        let row := popOf o g.2.need
        match simWork c p st.s w [row] false with
        | (s', .error .insufficientFree) => .ok { st with s := s' }
        | (_, .error e) => .error e
        | (s', .ok wk) =>
          psSims c o p ws { st with s := s', work := dset st.work w wk, q := { g.2 with need := g.2.need.filter (· ≠ row) } }

/-- `all(np.logical_or(H["sim_ended"][last_size:], H["paused"][last_size:]))`; `marks` are the rows marked in this call. -/
def psSettled (H : List Row) (o : PsOpts) (marks : List Nat) (last : Option Nat) : Bool :=
  (List.range H.length).all fun i => decide (i < last.getD 0) || decide (i ∈ marks) ||
    match H[i]? with | none => true | some r => r.flag .simEnded || r.flag o.paused

/-- Loop of fast_alloc_and_pausing.py:121-146. -/
def psGens (c : Ctx) (o : PsOpts) (p : PInfo) : List Nat → PsSt → Except AErr PsSt
  | [], st => .ok st
  | w :: ws, st =>
    if st.gens < o.numActive.getD (st.gens + 1) then
      if !c.H.isEmpty && o.batch && !psSettled c.H o st.marks st.q.lastSize then .ok st
      else
        match genWork c p st.s w c.genIn (List.range c.H.length) false none none with
        | (s', .error .insufficientFree) => .ok { st with s := s' }
        | (_, .error e) => .error e
        | (s', .ok wk) =>
          psGens c o p ws { st with
            s := s', work := dset st.work w wk, gens := st.gens + 1, q := { st.q with lastSize := some c.H.length } }
    else .ok st

/-- What a call returns: the orders, the bookkeeping, and the rows it marked in the history. -/
structure PsAns where
  work : WorkD
  q : PsInfo
  marks : List Nat

/-- `give_sim_work_first` of fast_alloc_and_pausing.py:6-148. -/
def psAlloc (c : Ctx) (o : PsOpts) (p : PInfo) (q : PsInfo) (s : Sched) : Except AErr PsAns :=
  if c.simMaxGiven || !c.anyIdle then .ok ⟨[], q, []⟩
  else if o.single && !o.batch then .error .assertion
  else
    match availIds c.W none false none (some false), availIds c.W none false none (some true) with
    | .ok ws, .ok wg =>
      match psSims c o p ws ⟨s, [], psUpdate c.H q, [], countGens c.W⟩ with
      | .error e => .error e
      | .ok st =>
        match psGens c o p wg st with
        | .error e => .error e
        | .ok st => .ok ⟨st.work, st.q, st.marks⟩
    | .error e, _ => .error e
    | _, .error e => .error e

/-- The calls of a run, each with its history, worker table, resources and order of sets; an exception ends it. -/
def psRun (o : PsOpts) (q : PsInfo) : List (Ctx × PInfo × Sched) → List (Ctx × PsAns)
  | [] => []
  | (c, p, s) :: cs =>
    match psAlloc c o p q s with
    | .error _ => []
    | .ok a => (c, a) :: psRun o a.q cs

end Verif.Alloc
