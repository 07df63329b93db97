/-
Model of the generator APOSMM, `libensemble/gen_funcs/persistent_aposmm.py`: the distances to better points
(`update_history_dist`), the choice of starting points (`decide_where_to_start_localopt`), the bookkeeping of local
optimization runs and the loop of `aposmm`.

Conventions
* Points are elements of any type `α`; distances and the distance to the boundary are given functions with values in `Int`
  (only their order matters).  Infinite distances are `none`.  Simplification: a distance is never NaN.
* Objective values are `FVal`: numbers, the two infinities and NaN with the comparisons of floats.
* The local optimizers are an input: `ans c k` is what run `c` answers when it is asked for the `k`-th time.  The sample
  points are an input: `samp i` is the point of row `i`.
* Returned arrays contain `f` (and possibly other values that are passed to the optimizers only).  Simplification: the
  points in them are those of the rows.
* Not modelled: `standalone` mode, `generate_sample_points = False`, `periodic`, scaling to the user's bounds, gradients and `fvec`,
  the processes of the optimizers.
-/
namespace Verif.Aposmm

/-- An objective value. -/
inductive FVal
  | ninf
  | num (x : Int)
  | inf
  | nan
deriving DecidableEq, Repr

/-- `<` of floats. -/
def FVal.lt : FVal → FVal → Bool
  | .nan, _ => false
  | _, .nan => false
  | .ninf, .ninf => false
  | .ninf, _ => true
  | _, .ninf => false
  | .num a, .num b => decide (a < b)
  | .num _, .inf => true
  | .inf, _ => false

/-- `np.isinf`. -/
def FVal.isInf : FVal → Bool
  | .inf => true
  | .ninf => true
  | _ => false

/-- A row of `local_H` (fields in persistent_aposmm.py:669-687).  `bnd`, `dl`, `ds`: dist_to_unit_bounds, dist_to_better_l, dist_to_better_s;
`il`, `is`: ind_of_better_l, ind_of_better_s. -/
structure ARow (α : Type) where
  x : α
  f : FVal := .num 0
  isLocal : Bool := false
  known : Bool := false
  bnd : Option Int := none
  dl : Option Int := none
  ds : Option Int := none
  il : Int := -1
  iS : Int := -1
  started : Bool := false
  nact : Int := 0
  lmin : Bool := false
  sid : Nat
  paused : Bool := false
  ended : Bool := false

/-- Distances between points, and of a point to the boundary of the unit cube. -/
structure Geo (α : Type) where
  dist : α → α → Int
  bound : α → Int
  sym : ∀ x y, dist x y = dist y x

variable {α : Type}

/-- The rows `p` looked at: evaluated, value not NaN (persistent_aposmm.py:382). -/
def ARow.good (r : ARow α) : Bool := r.ended && decide (r.f ≠ .nan)

/-- `a < b` for distances that may be infinite. -/
def ltInf (a : Int) : Option Int → Bool
  | none => true
  | some b => decide (a < b)

/-- The first entry with the smallest number (`argmin`). -/
def nearest : List (Nat × Int) → Option (Nat × Int)
  | [] => none
  | a :: l => match nearest l with
    | none => some a
    | some b => if b.2 < a.2 then some b else some a

/-- A row that a new better point `r` (row `k`) may be closest to (persistent_aposmm.py:394-407). -/
def tell (g : Geo α) (r : ARow α) (k : Nat) (o : ARow α) : ARow α :=
  if o.good && FVal.lt r.f o.f then
    if r.isLocal then
      if ltInf (g.dist r.x o.x) o.dl then { o with dl := some (g.dist r.x o.x), il := k } else o
    else
      if ltInf (g.dist r.x o.x) o.ds then { o with ds := some (g.dist r.x o.x), iS := k } else o
  else o

/-- The rows that are at least as good as row `k`, of the given kind, with their distances (persistent_aposmm.py:409-413). -/
def rivals (g : Geo α) (rows : List (ARow α)) (r : ARow α) (k : Nat) (loc : Bool) : List (Nat × Int) :=
  (rows.filter fun o => o.good && !FVal.lt r.f o.f && (o.isLocal == loc) && decide (o.sid ≠ k)).map fun o => (o.sid, g.dist r.x o.x)

/-- The new row itself (persistent_aposmm.py:387-392, 416-424). -/
def settle (g : Geo α) (rows : List (ARow α)) (k : Nat) (r : ARow α) : ARow α :=
  let r := { r with known := true, bnd := some (g.bound r.x) }
  let r := match nearest (rivals g rows r k true) with
    | some (j, d) => { r with dl := some d, il := j }
    | none => r
  match nearest (rivals g rows r k false) with
    | some (j, d) => { r with ds := some d, iS := j }
    | none => r

/-- One pass of the loop over the new points (persistent_aposmm.py:384-424). -/
def learn (g : Geo α) (rows : List (ARow α)) (k : Nat) : List (ARow α) :=
  match rows[k]? with
  | none => rows
  | some r =>
    if !r.known && r.good then
      let rows := rows.map (tell g r k)
      rows.modify k (settle g rows k)
    else rows

/-- `np.min` of floats: NaN if there is one. -/
def minF : List FVal → FVal
  | [] => .nan
  | [a] => a
  | a :: l =>
    let m := minF l
    if a = .nan ∨ m = .nan then .nan else if FVal.lt m a then m else a

/-- Exceptions. -/
inductive Err
  | check       -- AssertionError, persistent_aposmm.py:440
  | index       -- IndexError
  | key         -- KeyError: a result for a run that has ended
  | badStart    -- the first answer of an optimizer is no point (persistent_aposmm.py:267-269)
  | optimizer   -- APOSMMException
  | noPoints    -- AssertionError, persistent_aposmm.py:727
deriving DecidableEq, Repr

/-- `==` of floats. -/
def FVal.eqv (a b : FVal) : Bool := decide (a ≠ .nan) && decide (a = b)

/-- The best sample point, when every sample point has a better or equal one (persistent_aposmm.py:437-444). -/
def breakTie (rows : List (ARow α)) : Except Err (List (ARow α)) :=
  let s := rows.filter fun r => !r.isLocal
  if !s.isEmpty && s.all (fun r => r.ds.isSome) then
    if s.length < 2 then .error .check
    else match (s.filter fun r => r.f.eqv (minF (s.map (·.f)))).head? with
      | none => .error .index
      | some b => if b.sid < rows.length then .ok (rows.modify b.sid fun r => { r with ds := none, iS := -1 }) else .error .index
  else .ok rows

/-- `update_history_dist` (persistent_aposmm.py:372-444). -/
def updateDist (g : Geo α) (rows : List (ARow α)) : Except Err (List (ARow α)) :=
  breakTie ((List.range rows.length).foldl (learn g) rows)

/-! ### Where to start runs -/

/-- `d > r_k`. -/
def farther (d rk : Option Int) : Bool :=
  match d, rk with
  | _, none => false
  | none, some _ => true
  | some d, some r => decide (d > r)

/-- `d >= mu`. -/
def atLeast (d : Option Int) (mu : Int) : Bool := match d with | none => true | some d => decide (d ≥ mu)

/-- `test_2_through_5` (persistent_aposmm.py:559-579). -/
def ARow.tests (g : Geo α) (rows : List (ARow α)) (rk : Option Int) (mu nu : Int) (r : ARow α) : Bool :=
  r.ended && farther r.ds rk && !r.started && atLeast r.bnd mu &&
    (if nu > 0 then rows.all fun o => !o.lmin || decide (g.dist r.x o.x ≥ nu) else true)

def ARow.finite (r : ARow α) : Bool := !r.f.isInf && decide (r.f ≠ .nan)

/-- `sample_seeds` with S1, without paused points (persistent_aposmm.py:588-603, 620-622). -/
def ARow.sampleStart (g : Geo α) (rows : List (ARow α)) (rk : Option Int) (mu nu : Int) (r : ARow α) : Bool :=
  !r.isLocal && r.finite && r.tests g rows rk mu nu && farther r.dl rk && !r.paused

/-- `local_seeds` (persistent_aposmm.py:606-618). -/
def ARow.localStart (g : Geo α) (rows : List (ARow α)) (rk : Option Int) (mu nu : Int) (r : ARow α) : Bool :=
  r.isLocal && farther r.dl rk && r.finite && r.tests g rows rk mu nu && decide (r.nact = 0) && !r.lmin

/-- The numbers of the rows with a property. -/
def indsWhere (rows : List (ARow α)) (p : ARow α → Bool) : List Nat :=
  (List.range rows.length).filter fun i => ((rows[i]?).map p).getD false

def valueAt (rows : List (ARow α)) (i : Nat) : FVal := ((rows[i]?).map (·.f)).getD .nan

/-- Insertion into a list sorted by value. -/
def insertBy (v : Nat → FVal) (i : Nat) : List Nat → List Nat
  | [] => [i]
  | j :: l => if FVal.lt (v j) (v i) then j :: insertBy v i l else i :: j :: l

/-- `decide_where_to_start_localopt` (persistent_aposmm.py:505-629).  Simplification: rows of equal value are kept in their order
(numpy's sort may exchange them). -/
def startInds (g : Geo α) (rows : List (ARow α)) (rk : Option Int) (mu nu : Int) : List Nat :=
  (indsWhere rows (ARow.sampleStart g rows rk mu nu) ++ indsWhere rows (ARow.localStart g rows rk mu nu)).foldr (insertBy (valueAt rows)) []

/-! ### The generator -/

/-- An answer of a local optimizer (`LocalOptInterfacer.iterate`, aposmm_localopt_support.py:155-186). -/
inductive Ans (α : Type)
  | point (x : α)
  | conv (x : α) (flag : Bool)
  | err

/-- What does not change.  `rk` is `calc_rk` as a function of `n_s` (persistent_aposmm.py:632-646). -/
structure Cfg (α : Type) where
  geo : Geo α
  rk : Nat → Option Int
  mu : Int := 0
  nu : Int := 0
  maxActive : Option Nat := none
  stopMinima : Option Nat := none
  stopRuns : Option Nat := none
  tol : Int := 0                      -- tol_x2 (persistent_aposmm.py:484)
  initial : Nat := 0                  -- initial_sample_size
  nworkers : Nat := 1
  ans : Nat → Nat → Ans α
  samp : Nat → α

/-- What happened: a run is started at a row, a row with its value is passed to a run, a run ends, rows are sent (first the new ones,
then those reported as minima), results are received. -/
inductive Ev
  | start (c i : Nat)
  | iter (c i : Nat)
  | conv (c : Nat)
  | send (new opt : List Nat)
  | got (vals : List (Nat × FVal))
deriving DecidableEq, Repr

/-- The variables of `aposmm`.  `order` is `run_order` (run `c` is entry `c`), `calls` counts the questions to each run; `tr` is the list of
what happened, newest first, which the code does not have. -/
structure St (α : Type) where
  rows : List (ARow α)
  ns : Nat := 0
  opters : List Nat := []
  order : List (List Nat) := []
  calls : Nat → Nat := fun _ => 0
  child : Nat → List Nat := fun _ => []
  endedRuns : List Nat := []
  sent : Bool := false
  first : Bool := true
  tr : List Ev := []

/-- `add_to_local_H` for one point (persistent_aposmm.py:330-361). -/
def addRow (rows : List (ARow α)) (x : α) (loc : Bool) : List (ARow α) :=
  rows ++ [{ x := x, isLocal := loc, nact := if loc then 1 else 0, sid := rows.length }]

/-- `add_k_sample_points_to_local_H` (persistent_aposmm.py:766-779). -/
def addSamples (c : Cfg α) : Nat → List (ARow α) → List (ARow α)
  | 0, rows => rows
  | k + 1, rows => addSamples c k (addRow rows (c.samp rows.length) false)

/-- One question to run `c`. -/
def ask (cf : Cfg α) (s : St α) (c i : Nat) : Ans α × St α :=
  (cf.ans c (s.calls c), { s with calls := fun d => if d = c then s.calls d + 1 else s.calls d, tr := .iter c i :: s.tr })

/-- The row of a run closest to the reported minimum (persistent_aposmm.py:462-466): `np.unique` sorts and removes repetitions. -/
def uniq (l : List Nat) : List Nat := (List.range (l.foldl max 0 + 1)).filter (· ∈ l)

def closestTo (cf : Cfg α) (rows : List (ARow α)) (x : α) (run : List Nat) : Option Nat :=
  (nearest ((uniq run).filterMap fun i => (rows[i]?).map fun r => (i, cf.geo.dist r.x x))).map (·.1)

/-- `update_history_optimal` (persistent_aposmm.py:456-502): the row and the new rows. -/
def optimal (cf : Cfg α) (rows : List (ARow α)) (x : α) (flag : Bool) (run : List Nat) : Option (Nat × List (ARow α)) :=
  match closestTo cf rows x run with
  | none => none
  | some o =>
    let mark : List (ARow α) → List (ARow α) := fun rs => rs.mapIdx fun i r =>
      if flag && (decide (i = o) || (decide (i ∈ run) && FVal.lt r.f (valueAt rows o) && decide (cf.geo.dist r.x x < cf.tol))) then { r with lmin := true } else r
    some (o, (mark rows).mapIdx fun i r => if i ∈ run then { r with nact := r.nact - 1 } else r)

/-- What one pass has collected for the manager. -/
structure Out where
  new : List Nat := []
  opt : List Nat := []

/-- A new point of run `c` (persistent_aposmm.py:241-249, 269-278). -/
def addPoint (s : St α) (c : Nat) (x : α) : St α :=
  { s with
    rows := addRow s.rows x true
    order := s.order.modify c (· ++ [s.rows.length])
    child := fun j => if j = s.rows.length then s.child j ++ [c] else s.child j }

/-- Row `i` is passed to run `c` (persistent_aposmm.py:232-249). -/
def passTo (cf : Cfg α) (i c : Nat) (s : St α) (o : Out) : Except Err (St α × Out) :=
  if c ∉ s.opters then .error .key
  else match ask cf s c i with
    | (.err, _) => .error .optimizer
    | (.point x, s) => .ok (addPoint s c x, { o with new := o.new ++ [s.rows.length] })
    | (.conv x flag, s) => match optimal cf s.rows x flag ((s.order[c]?).getD []) with
      | none => .error .index
      | some (j, rows) =>
        .ok ({ s with rows := rows, opters := s.opters.erase c, endedRuns := s.endedRuns ++ [c], tr := .conv c :: s.tr }, { o with opt := o.opt ++ [j] })

/-- The loop over the runs of a row (persistent_aposmm.py:229-249). -/
def passAll (cf : Cfg α) (i : Nat) : List Nat → St α → Out → Except Err (St α × Out)
  | [], s, o => .ok (s, o)
  | c :: cs, s, o => match passTo cf i c s o with
    | .error e => .error e
    | .ok (s, o) => passAll cf i cs s o

/-- The loop over the rows received (persistent_aposmm.py:228-249). -/
def passRows (cf : Cfg α) : List Nat → St α → Out → Except Err (St α × Out)
  | [], s, o => .ok (s, o)
  | i :: is, s, o => match passAll cf i (s.child i) s o with
    | .error e => .error e
    | .ok (s, o) => passRows cf is s o

/-- Values received for rows (persistent_aposmm.py:317-320). -/
def record (rows : List (ARow α)) (vals : List (Nat × FVal)) : List (ARow α) :=
  vals.foldl (fun rs v => rs.modify v.1 fun r => { r with f := v.2, ended := true }) rows

/-- `update_local_H_after_receiving` (persistent_aposmm.py:306-327). -/
def receive (cf : Cfg α) (s : St α) (vals : List (Nat × FVal)) : Except Err (St α) :=
  if vals.any (fun v => decide (s.rows.length ≤ v.1)) then .error .index
  else
    let rows := record s.rows vals
    match updateDist cf.geo rows with
    | .error e => .error e
    | .ok rows' => .ok { s with
        rows := rows'
        ns := s.ns + vals.countP fun v => ((rows[v.1]?).map fun r => !r.isLocal).getD false
        tr := .got vals :: s.tr }

/-- May another run be started (persistent_aposmm.py:254)? -/
def mayStart (cf : Cfg α) (s : St α) : Bool := match cf.maxActive with
  | none => true
  | some m => decide (s.opters.length < m)

/-- The start of a run at row `i` (persistent_aposmm.py:255-280). -/
def startRun (cf : Cfg α) (i : Nat) (s : St α) (o : Out) : Except Err (St α × Out) :=
  let c := s.order.length
  let s := { s with rows := s.rows.modify i fun r => { r with started := true }, opters := s.opters ++ [c], order := s.order ++ [[i]],
                    tr := .start c i :: s.tr }
  match ask cf s c i with
  | (.err, _) => .error .optimizer
  | (.conv _ _, _) => .error .badStart
  | (.point x, s) => .ok (addPoint s c x, { o with new := o.new ++ [s.rows.length] })

/-- The loop over the starting points (persistent_aposmm.py:253-280). -/
def startAll (cf : Cfg α) : List Nat → St α → Out → Except Err (St α × Out)
  | [], s, o => .ok (s, o)
  | i :: is, s, o =>
    if mayStart cf s then match startRun cf i s o with
      | .error e => .error e
      | .ok (s, o) => startAll cf is s o
    else startAll cf is s o

/-- The second half of the loop (persistent_aposmm.py:251-296); `nr` is the number of results received. -/
def finishPass (cf : Cfg α) (nr : Nat) (s : St α) (o : Out) : Except Err (St α) :=
  match startAll cf (startInds cf.geo s.rows (cf.rk s.ns) cf.mu cf.nu) s o with
  | .error e => .error e
  | .ok (s, o) =>
    let k := (if s.first then cf.nworkers - 1 else nr) - o.new.length
    .ok { s with rows := addSamples cf k s.rows, first := false, sent := true
                 tr := .send (o.new ++ List.range' s.rows.length k) o.opt :: s.tr }

/-- Has the generator found enough (persistent_aposmm.py:218-220)? -/
def enough (cf : Cfg α) (s : St α) : Bool :=
  (match cf.stopMinima with | some m => decide (s.rows.countP (·.lmin) ≥ m) | none => false) ||
  (match cf.stopRuns with | some m => decide (s.endedRuns.length ≥ m) | none => false)

/-- What the manager sends: a stop, or results for rows. -/
inductive Msg
  | stop
  | work (vals : List (Nat × FVal))

/-- One pass of the loop (persistent_aposmm.py:203-296); `none` when the generator returns.  Before anything is sent the message is
not looked at. -/
def pass (cf : Cfg α) (s : St α) (m : Msg) : Except Err (Option (St α)) :=
  if s.sent then
    match m with
    | .stop => .ok none
    | .work vals =>
      if enough cf s then .ok none
      else match receive cf s vals with
        | .error e => .error e
        | .ok s => match passRows cf (vals.map (·.1)) s {} with
          | .error e => .error e
          | .ok (s, o) => match finishPass cf vals.length s o with
            | .error e => .error e
            | .ok s => .ok (some s)
  else match finishPass cf 0 s {} with
    | .error e => .error e
    | .ok s => .ok (some s)

/-- `initialize_APOSMM` and the initial sample (persistent_aposmm.py:653-733, 177-199): `H` are the rows given with `gen_specs["in"]`, their
distances are reset. -/
def begin (cf : Cfg α) (H : List (ARow α)) : Except Err (St α) :=
  let rows := H.map fun r => { r with bnd := none, dl := none, ds := none, il := -1, iS := -1 }
  match (if rows.isEmpty then .ok rows else updateDist cf.geo rows) with
  | .error e => .error e
  | .ok rows =>
    let s : St α := { rows := rows, ns := rows.countP fun r => !r.isLocal }
    if s.ns = 0 ∧ cf.initial = 0 then .error .noPoints
    else if cf.initial = 0 then .ok s
    else .ok { s with rows := addSamples cf cf.initial rows, sent := true, tr := [.send (List.range' rows.length cf.initial) []] }

end Verif.Aposmm
