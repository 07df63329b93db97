import Verif.Alloc.Model
/-
The allocation functions for finite differences (start_fd_persistent.py), inverse problems (inverse_bayes_allocf.py) and
runs of local optimization (start_persistent_local_opt_gens.py).

Simplifications: columns hold integers (`f` too); writes of the functions into columns of the user (`weight`; `num_active_runs`,
`local_min`, `started_run`) and into `persis_info[wid]` are left out; the rows that `decide_where_to_start_localopt` proposes are an input.
-/
namespace Verif.Alloc
open Verif.History Verif.Res Verif.Sched

/-- Entry of column `f` in row `i`. -/
def intAt (H : List Row) (f : Field) (i : Nat) : Int :=
  match H[i]? with
  | none => 0
  | some r => match r f with | .s x => x | .v _ => 0

/-- First element with the largest value (`np.argmax`). -/
def argMax (v : Nat → Int) : Nat → List Nat → Nat
  | best, [] => best
  | best, i :: is => if v i > v best then argMax v i is else argMax v best is

/-- Loop that gives the rows `pick pts` of the remaining waiting rows `pts` to the next worker until none is left
(start_fd_persistent.py:52-62, inverse_bayes_allocf.py:45-59, start_persistent_local_opt_gens.py:81-94). -/
def pickSims (c : Ctx) (pick : List Nat → List Nat) : List Nat → LoopSt → Except AErr LoopSt
  | [], st => .ok st
  | w :: ws, st =>
    if st.pts.isEmpty then .ok st
    else match simWork c st.p st.s w (pick st.pts) false with
      | (s', .error .insufficientFree) => .ok { st with s := s' }
      | (_, .error e) => .error e
      | (s', .ok wk) =>
        pickSims c pick ws { st with s := s', work := dset st.work w wk, pts := st.pts.filter fun i => decide (i ∉ pick st.pts) }

/-- A generator on the first idle generator worker (start_fd_persistent.py:65-66, inverse_bayes_allocf.py:62-63,
start_persistent_local_opt_gens.py:98-99); without one, `[0]` raises. -/
def startFirst (c : Ctx) (persistent : Bool) (given : Option (List Nat)) (st : LoopSt) : Except AErr LoopSt :=
  match availIds c.W (some 0) false none (some true) with
  | .error e => .error e
  | .ok [] => .error .indexError
  | .ok (w :: _) =>
    match genWork c st.p st.s w c.genIn [] persistent none given with
    | (_, .error e) => .error e
    | (s', .ok wk) => .ok { st with s := s', work := dset st.work w wk, gens := st.gens + 1 }

/-! ### finite_diff_alloc (alloc_funcs/start_fd_persistent.py) -/

/-- The columns `x_ind`, `f_ind` and `n`, `p`, `nf` of `gen_specs["user"]`. -/
structure FdOpts where
  x : Field
  f : Field
  n : Nat
  p : Nat
  nf : Nat

/-- Evaluated rows of a pair (x_ind, f_ind) that were not sent back (start_fd_persistent.py:36-42). -/
def fdGroup (H : List Row) (o : FdOpts) (x f : Nat) : List Nat :=
  rowsWhere H fun r => !r.flag .genInformed && (decide (r o.x = .s x) && decide (r o.f = .s f) && r.flag .simEnded)

/-- Rows to send back (start_fd_persistent.py:39-44): the `sim_id`s of the pairs with exactly `nf` such rows. -/
def fdBack (H : List Row) (o : FdOpts) : List Nat :=
  (List.range o.n).flatMap fun x => (List.range o.p).flatMap fun f =>
    if (fdGroup H o x f).length = o.nf then (fdGroup H o x f).map fun i => (intAt H .simId i).toNat else []

/-- Loop of start_fd_persistent.py:33-49. -/
def fdReturns (c : Ctx) (o : FdOpts) : List Nat → LoopSt → Except AErr LoopSt
  | [], st => .ok st
  | w :: ws, st =>
    if (fdBack c.H o).isEmpty then fdReturns c o ws st
    else match genWork c st.p st.s w c.persisIn (fdBack c.H o) true none none with
      | (_, .error e) => .error e
      | (s', .ok wk) => fdReturns c o ws { st with s := s', work := dset st.work w wk }

/-- The oldest row (start_fd_persistent.py:55). -/
def oldest (pts : List Nat) : List Nat := pts.take 1

/-- `finite_diff_alloc` (start_fd_persistent.py:7-69). -/
def fdAlloc (c : Ctx) (o : FdOpts) (p : PInfo) (s : Sched) : Except AErr Answer :=
  if c.simMaxGiven || !c.anyIdle then .ok ⟨[], p, false⟩
  else
    let gens := countPersisGens c.W
    if !c.H.isEmpty && decide (gens = 0) then .ok ⟨[], p, true⟩
    else match availIds c.W (some EVAL_GEN) false none none with
      | .error e => .error e
      | .ok ws => match fdReturns c o ws ⟨s, [], waiting c.H, gens, p⟩ with
        | .error e => .error e
        | .ok st => match availIds c.W (some 0) false none (some false) with
          | .error e => .error e
          | .ok ws => match pickSims c oldest ws st with
            | .error e => .error e
            | .ok st => if gens = 0 then (startFirst c true none st).map (·.answer false) else .ok (st.answer false)

/-! ### only_persistent_gens_for_inverse_bayes (alloc_funcs/inverse_bayes_allocf.py) -/

/-- The columns `batch`, `subbatch` and the number of rows per batch (`subbatch_size * num_subbatches`). -/
structure IbOpts where
  batch : Field
  sub : Field
  size : Nat

/-- Largest and smallest entry of a non-empty list. -/
def maxOf (a : Int) (l : List Int) : Int := l.foldl max a
def minOf (a : Int) (l : List Int) : Int := l.foldl min a

/-- Rows to send back to generator `w` (inverse_bayes_allocf.py:34-36): the last batch.  The two operands of `logical_and` have
the lengths of the history and of the rows of the generator, so that numpy raises unless these agree or the generator has one row. -/
def ibBack (H : List Row) (o : IbOpts) (w : Nat) : Except AErr (List Nat) :=
  let own := rowsWhere H (ofGen w)
  match own with
  | [] => .error .emptyMax
  | i :: is =>
    let last := maxOf (intAt H o.batch i) (is.map (intAt H o.batch))
    if own.length = H.length then .ok (own.filter fun j => decide (intAt H o.batch j = last))
    else if own.length = 1 then .ok own
    else .error .valueError

/-- Length of the slice `[lo:hi]` of an array of length `n`. -/
def sliceLen (n lo hi : Nat) : Nat := min hi n - min lo n

/-- Can the weights be copied from batch `k` to batch `k - 1` (inverse_bayes_allocf.py:37-40)?  numpy raises if the slices differ in length. -/
def weightsFit (H : List Row) (o : IbOpts) : Bool :=
  let k := intAt H o.batch (H.length - 1)
  if k > 0 then
    let a := sliceLen H.length (o.size * (k.toNat - 1)) (o.size * k.toNat)
    let b := sliceLen H.length (o.size * k.toNat) (o.size * (k.toNat + 1))
    decide (b = a) || decide (b = 1)
  else true

/-- Loop of inverse_bayes_allocf.py:28-42; `like`: the field `like`. -/
def ibReturns (c : Ctx) (o : IbOpts) (like : Field) : List Nat → LoopSt → Except AErr LoopSt
  | [], st => .ok st
  | w :: ws, st =>
    if allSimEnded c.H (ofGen w) then
      match ibBack c.H o w with
      | .error e => .error e
      | .ok rows =>
        if weightsFit c.H o then
          match genWork c st.p st.s w [like] rows true none none with
          | (_, .error e) => .error e
          | (s', .ok wk) => ibReturns c o like ws { st with s := s', work := dset st.work w wk }
        else .error .valueError
    else ibReturns c o like ws st

/-- The rows of the smallest subbatch number (inverse_bayes_allocf.py:49-51). -/
def firstSub (H : List Row) (sub : Field) : List Nat → List Nat
  | [] => []
  | i :: is => (i :: is).filter fun j => decide (intAt H sub j = minOf (intAt H sub i) (is.map (intAt H sub)))

/-- `only_persistent_gens_for_inverse_bayes` (inverse_bayes_allocf.py:7-65). -/
def ibAlloc (c : Ctx) (o : IbOpts) (like : Field) (p : PInfo) (s : Sched) : Except AErr Answer :=
  if c.simMaxGiven || !c.anyIdle then .ok ⟨[], p, false⟩
  else
    let gens := countPersisGens c.W
    match availIds c.W (some EVAL_GEN) false none none with
    | .error e => .error e
    | .ok ws => match ibReturns c o like ws ⟨s, [], waiting c.H, gens, p⟩ with
      | .error e => .error e
      | .ok st =>
        if st.pts.isEmpty then
          if gens = 0 then (startFirst c true none st).map (·.answer false) else .ok (st.answer false)
        else match availIds c.W (some 0) false none (some false) with
          | .error e => .error e
          | .ok ws => (pickSims c (firstSub c.H o.sub) ws st).map (·.answer false)

/-! ### start_persistent_local_opt_gens (alloc_funcs/start_persistent_local_opt_gens.py) -/

/-- The columns `local_pt` and `f`; `cand l`: the rows proposed for new runs when runs have been started at the rows `l` in this call
(`decide_where_to_start_localopt`, gen_funcs/persistent_aposmm.py). -/
structure LoOpts where
  localPt : Field
  f : Field
  cand : List Nat → List Nat

/-- Loop of start_persistent_local_opt_gens.py:49-55: the row of the run that was given out last. -/
def loReturns (c : Ctx) : List Nat → LoopSt → Except AErr LoopSt
  | [], st => .ok st
  | w :: ws, st =>
    if allSimEnded c.H (ofGen w) then
      match rowsWhere c.H (ofGen w) with
      | [] => .error .emptyMax
      | i :: is =>
        match genWork c st.p st.s w c.persisIn [argMax (intAt c.H .simStartedTime) i is] true none none with
        | (_, .error e) => .error e
        | (s', .ok wk) => loReturns c ws { st with s := s', work := dset st.work w wk }
    else loReturns c ws st

/-- Rows at which a run may start (start_persistent_local_opt_gens.py:59-66).  The third argument of `logical_and` is its
output, so that cancelled rows are not left out. -/
def loCand (c : Ctx) (o : LoOpts) (started : List Nat) : List Nat :=
  if c.H.any fun r => !r.flag o.localPt && r.flag .simEnded then o.cand started else []

/-- Loop of start_persistent_local_opt_gens.py:57-79. -/
def loStarts (c : Ctx) (o : LoOpts) : List Nat → List Nat → LoopSt → Except AErr LoopSt
  | [], _, st => .ok st
  | w :: ws, started, st =>
    match loCand c o started with
    | [] => loStarts c o ws started st
    | i :: is =>
      if st.gens + 1 < c.W.length then
        let ind := argMax (fun j => -intAt c.H o.f j) i is
        match genWork c st.p st.s w c.persisIn [ind] true none none with
        | (s', .error .insufficientFree) => .ok { st with s := s' }
        | (_, .error e) => .error e
        | (s', .ok wk) => loStarts c o ws (started ++ [ind]) { st with s := s', work := dset st.work w wk, gens := st.gens + 1 }
      else loStarts c o ws started st

/-- Rows of runs first, the oldest (start_persistent_local_opt_gens.py:84-87). -/
def localFirst (H : List Row) (localPt : Field) (pts : List Nat) : List Nat :=
  let own := pts.filter fun i => ((H[i]?).map (·.flag localPt)).getD false
  if own.isEmpty then pts.take 1 else own.take 1

/-- `start_persistent_local_opt_gens` (start_persistent_local_opt_gens.py:8-102). -/
def loAlloc (c : Ctx) (o : LoOpts) (p : PInfo) (s : Sched) : Except AErr Answer :=
  if c.simMaxGiven || !c.anyIdle then .ok ⟨[], p, false⟩
  else
    match availIds c.W (some EVAL_GEN) false none none with
    | .error e => .error e
    | .ok ws => match loReturns c ws ⟨s, [], waiting c.H, countPersisGens c.W, p⟩ with
      | .error e => .error e
      | .ok st => match availIds c.W (some 0) false none (some true) with
        | .error e => .error e
        | .ok ws => match loStarts c o ws [] st with
          | .error e => .error e
          | .ok st => match availIds c.W (some 0) false none (some false) with
            | .error e => .error e
            | .ok ws => match pickSims c (localFirst c.H o.localPt) ws st with
              | .error e => .error e
              | .ok st =>
                if decide (st.gens = 0) && !c.W.any (fun k => decide (k.active = EVAL_GEN) && decide (k.persis = 0)) then
                  (startFirst c false (some []) st).map (·.answer false)
                else .ok (st.answer false)

end Verif.Alloc
