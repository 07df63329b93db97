/-
The calibration generator `surmise_calib` (libensemble/gen_funcs/persistent_surmise_calib.py).

The generator keeps two-dimensional arrays, one row for each of the `nx` places `x`, one column for each parameter `theta`; a run is
a fold of `recv` over the arrays received after the second batch was sent.

Simplifications: function values are integers; how many parameters the emulator selects and which columns it finds superfluous is any
function of the arrays received so far; numbers of columns beyond the last one are ignored (an IndexError in the code); coordinates,
priorities, the models of the surmise package and the prints are left out; the first batch (the true values) is its number of points
`off`, usually `nx`; a stop ends the generator in any state and is not a step.
-/
namespace Verif.Gens.Cal

/-- `sim_id` and `f` of the rows of `calc_in`. -/
abbrev Msg := List (Nat × Int)

/-- `num_x_vals`, `n_init_thetas`, `obs_offset`; `pick`: `select_next_theta`, number of new parameters and columns to give up. -/
structure Cfg where
  nx : Nat
  n0 : Nat
  off : Nat
  pick : List Msg → Nat × List Nat

/-- The arrays `fevals` (`nan` is `none`), `pending`, `prev_pending`, `complete`, and their number of columns. -/
structure St where
  cols : Nat
  val : Nat → Nat → Option Int
  pend : Nat → Nat → Bool
  prev : Nat → Nat → Bool
  comp : Nat → Nat → Bool

/-- All cells of an array. -/
def cells (nx cols : Nat) : List (Nat × Nat) := (List.range nx).flatMap fun r => (List.range cols).map fun c => (r, c)

/-- `np.sum` of an array of truth values. -/
def total (nx cols : Nat) (a : Nat → Nat → Bool) : Nat := ((cells nx cols).filter fun q => a q.1 q.2).length

/-- `load_H` (persistent_surmise_calib.py:112-125): the row of the array for the `i`-th place and the `t`-th of `k` parameters. -/
def rowOf (k i t : Nat) : Nat := i * k + t

/-- `divmod(sim_id - obs_offset, n_x)` (persistent_surmise_calib.py:81): row and column. -/
def cellOf (off nx id : Nat) : Nat × Nat := ((id - off) % nx, (id - off) / nx)

/-- `create_arrays` (persistent_surmise_calib.py:54-61): `reshape(f, (n_x, n_thetas))`, an exception for another number of values. -/
def create (c : Cfg) (m : Msg) : Option St :=
  if m.length = c.nx * c.n0 then
    some { cols := c.n0, val := fun r k => if r < c.nx ∧ k < c.n0 then (m[r * c.n0 + k]?).map (·.2) else none,
           pend := fun _ _ => false, prev := fun _ _ => false, comp := fun r k => decide (r < c.nx ∧ k < c.n0) }
  else none

/-- `pad_arrays` (persistent_surmise_calib.py:64-75): `k` new columns. -/
def pad (c : Cfg) (st : St) (k : Nat) : St :=
  let new : Nat → Nat → Bool := fun r j => decide (r < c.nx ∧ st.cols ≤ j ∧ j < st.cols + k)
  { cols := st.cols + k, val := fun r j => if new r j then none else st.val r j, pend := fun r j => new r j || st.pend r j,
    prev := fun r j => new r j || st.prev r j, comp := fun r j => !new r j && st.comp r j }

def put {α : Type} (a : Nat → Nat → α) (q : Nat × Nat) (x : α) : Nat → Nat → α := fun r c => if (r, c) = q then x else a r c

/-- `update_arrays` (persistent_surmise_calib.py:78-86). -/
def update (c : Cfg) (st : St) (m : Msg) : St :=
  m.foldl (fun st x => { st with val := put st.val (cellOf c.off c.nx x.1) (some x.2), pend := put st.pend (cellOf c.off c.nx x.1) false,
                                  comp := put st.comp (cellOf c.off c.nx x.1) true }) st

/-- The numbers in `cancel_columns` (persistent_surmise_calib.py:89-101). -/
def cancelIds (c : Cfg) (st : St) (obv : List Nat) : List Nat :=
  ((List.range st.cols).filter (· ∈ obv)).flatMap fun j => ((List.range c.nx).filter fun i => st.pend i j).map fun i => c.off + j * c.nx + i

/-- persistent_surmise_calib.py:99, 244: nothing is pending in these columns any more. -/
def giveUp (st : St) (obv : List Nat) : St := { st with pend := fun r j => !decide (j ∈ obv) && st.pend r j }

/-- `select_condition` (persistent_surmise_calib.py:41-43). -/
def selects (c : Cfg) (st : St) : Bool := !decide (total c.nx st.cols st.pend > 5 * c.nx)

/-- `rebuild_condition` (persistent_surmise_calib.py:46-51). -/
def rebuilds (c : Cfg) (st : St) : Bool :=
  decide ((total c.nx st.cols st.prev : Int) - total c.nx st.cols st.pend ≥ c.nx * 5) || decide (total c.nx st.cols st.pend = 0)

/-- Where the generator waits: for the initial batch; in the middle of the loop (line 192); after new points (line 237), with the columns to
give up; or it has failed, or runs in circles. -/
inductive Pos
  | first | mid | sel (obv : List Nat) | failed | spins
deriving DecidableEq, Repr

/-- What it has sent after the first two batches: points for `k` parameters, requests to cancel. -/
inductive Out
  | points (k : Nat)
  | cancel (ids : List Nat)
deriving DecidableEq, Repr

structure Conf where
  st : St
  pos : Pos
  got : List Msg
  outs : List Out

/-- Before the loop (persistent_surmise_calib.py:157-176). -/
def start : Conf := { st := { cols := 0, val := fun _ _ => none, pend := fun _ _ => false, prev := fun _ _ => false, comp := fun _ _ => false }, pos := .first, got := [], outs := [] }

/-- New parameters (persistent_surmise_calib.py:226-237). -/
def select (c : Cfg) (f : Conf) : Conf :=
  let p := c.pick f.got
  { f with st := pad c f.st p.1, outs := f.outs ++ [.points p.1], pos := .sel p.2 }

/-- The loop from line 189 on, with `calc_in = m`, until it waits; `fuel` bounds the rounds made without waiting. -/
def top (c : Cfg) : Nat → Conf → Msg → Conf
  | 0, f, _ => { f with pos := .spins }
  | fuel + 1, f, m =>
    let st := update c f.st m
    if rebuilds c st then
      let f := { f with st := { st with prev := st.pend } }
      if selects c f.st then select c f else top c fuel f m
    else { f with st := st, pos := .mid }

/-- One array received (persistent_surmise_calib.py:178-244). -/
def recv (c : Cfg) (f : Conf) (m : Msg) : Conf :=
  let f := { f with got := f.got ++ [m] }
  match f.pos with
  | .first => match create c m with
    | none => { f with pos := .failed }
    | some st => if selects c st then select c { f with st := st } else top c 2 { f with st := st } m
  | .mid => if selects c f.st then select c f else top c 2 f m
  | .sel obv =>
    let ids := cancelIds c f.st obv
    let outs := if obv.isEmpty then f.outs else f.outs ++ [.cancel ids]
    top c 2 { f with st := giveUp f.st obv, outs := outs } m
  | _ => f

def after (c : Cfg) (ms : List Msg) : Conf := ms.foldl (recv c) start

end Verif.Gens.Cal
