/-
Model of `libensemble/history.py` (class `History`).

Conventions used in this file
* A numpy structured array is a list of rows plus a list of columns with shapes.  A row is a total
  function `Field → Val`; only the columns listed in `cols` are meaningful.
* Floats (times, objective values) are integers: only equality and order of the values matter here.
  Clock readings `time.time()` are inputs `t` of the operations.
* Python exceptions are values (`HErr`).  Every operation returns the state *as it is when the
  exception leaves the function*, because the manager dumps that state on abort.
-/
namespace Verif.History

/-- Column names.  The first group is `libE_fields` (`libensemble/tools/fields_keys.py:5-19`); `uid`
is the field `_id`, `resourceSets` is `resource_sets`, `priority`, `numProcs`, `numGpus` are the optional
fields used by the allocation functions; `user n` is any other user field. -/
inductive Field
  | simId | genWorker | genStartedTime | genEndedTime | simWorker | simStarted | simStartedTime
  | simEnded | simEndedTime | genInformed | genInformedTime | cancelRequested | killSent
  | uid | resourceSets | priority | numProcs | numGpus
  | user (n : Nat)
deriving DecidableEq, Repr

/-- `libE_fields`, `libensemble/tools/fields_keys.py:5-19`. -/
def libEFields : List Field :=
  [.simId, .genWorker, .genStartedTime, .genEndedTime, .simWorker, .simStarted, .simStartedTime,
   .simEnded, .simEndedTime, .genInformed, .genInformedTime, .cancelRequested, .killSent]

/-- `protected_libE_fields`, `libensemble/tools/fields_keys.py:23-35`. -/
def protectedFields : List Field :=
  [.genWorker, .genStartedTime, .genEndedTime, .simWorker, .simStarted, .simStartedTime,
   .simEnded, .simEndedTime, .genInformed, .genInformedTime, .killSent]

/-- A cell: a scalar or a vector (sub-array dtype). -/
inductive Val
  | s (x : Int)
  | v (xs : List Int)
deriving DecidableEq, Repr

/-- Shape of a column: scalar or vector of a given width. -/
inductive Shape
  | scalar
  | vec (n : Nat)
deriving DecidableEq, Repr

/-- `np.zeros` entry of a column. -/
def Shape.zero : Shape → Val
  | .scalar => .s 0
  | .vec n => .v (List.replicate n 0)

/-- Does a cell have the given shape? -/
def Val.hasShape : Val → Shape → Bool
  | .s _, .scalar => true
  | .v xs, .vec n => xs.length == n
  | _, _ => false

/-- Stand-in for `np.inf` (clock readings are non-negative, so it is no clock reading). -/
def INF : Val := .s (-1)

abbrev Row := Field → Val

/-- Assign one cell of a row. -/
def Row.set (r : Row) (f : Field) (x : Val) : Row := fun g => if g = f then x else r g

/-- Truth value of a boolean column. -/
def Row.flag (r : Row) (f : Field) : Bool := decide (r f ≠ .s 0)

/-- A structured array as returned by a user function (or `H0`). -/
structure Rec where
  cols : List (Field × Shape)
  rows : List Row

def Rec.fields (d : Rec) : List Field := d.cols.map (·.1)

/-- Exceptions that can leave a `History` method. -/
inductive HErr
  | protectedField (f : Field)   -- AssertionError, history.py:134, 254
  | tooMany (f : Field)          -- AssertionError, history.py:140
  | noValues (f : Field)         -- AssertionError, history.py:143
  | gap                          -- AssertionError, history.py:240
  | indexError                   -- numpy IndexError
  | shapeError (f : Field)       -- numpy broadcast error / len() of a scalar
  | emptyMax                     -- ValueError of np.max on an empty array
deriving DecidableEq, Repr

/-- Attributes of a `History` object (history.py:93-109). -/
structure Hist where
  cols : List (Field × Shape)
  rows : List Row
  index : Nat
  growCount : Nat
  safeMode : Bool
  usingH0 : Bool
  simStartedCount : Nat
  simEndedCount : Nat
  genInformedCount : Nat
  simStartedOffset : Nat
  simEndedOffset : Nat
  genInformedOffset : Nat
  lastStarted : Int
  lastEnded : Int

def Hist.fields (h : Hist) : List Field := h.cols.map (·.1)

/-- Value of a row in which nothing was written: zero of the column shape (0 outside the columns). -/
def zeroRow (cols : List (Field × Shape)) : Row := fun f =>
  match cols.find? (fun c => c.1 = f) with
  | some c => c.2.zero
  | none => .s 0

/-- The assignments of history.py:84-91 resp. 274-280 to one row
(`sim_id`, `_id` = -1, two times = inf, `resource_sets` = 1 if the column exists). -/
def freshen (cols : List (Field × Shape)) (r : Row) : Row :=
  let r := r.set .simId (.s (-1))
  let r := if .uid ∈ cols.map (·.1) then r.set .uid (.s (-1)) else r
  let r := r.set .simStartedTime INF
  let r := r.set .genInformedTime INF
  if .resourceSets ∈ cols.map (·.1) then r.set .resourceSets (.s 1) else r

/-- A preallocated row in which nothing was written yet (history.py:62, 82, 273 and `freshen`). -/
def freshRow (cols : List (Field × Shape)) : Row := freshen cols (zeroRow cols)

/-- Columns of `new` that are not yet in `old`. -/
def newCols (old new : List (Field × Shape)) : List (Field × Shape) :=
  new.filter (fun c => decide (c.1 ∉ old.map (·.1)))

/-- Number of rows with a flag set (`np.sum(H[f])`, history.py:99-101). -/
def countFlag (rows : List Row) (f : Field) : Nat := rows.countP (·.flag f)

/-- One row of `H` made from a row of `H0` (history.py:64-80).  `i` is the row number. -/
def h0Row (cols : List (Field × Shape)) (H0 : Rec) (i : Nat) (r : Row) : Row :=
  let base : Row := fun f => if f ∈ H0.fields then r f else zeroRow cols f
  let base :=
    if .simStarted ∉ H0.fields then (base.set .simStarted (.s 1)).set .simEnded (.s 1)
    else if .simEnded ∉ H0.fields then base.set .simEnded (r .simStarted)
    else base
  if .simId ∉ H0.fields then base.set .simId (.s i) else base

/-- `History.__init__` (history.py:43-109).  `specCols` is the union of `libE_fields` and the `out`
lists of the three specs.  `L` is `sim_max` (default 100).
For `L = 0` the slice `[-L:]` of history.py:84-91 is the whole array, so `H0` rows are overwritten too.
Simplification: dtype conflicts between `H0` and the specs are not modelled (H0 takes precedence,
history.py:59). -/
def init (specCols : List (Field × Shape)) (L : Nat) (H0 : Rec) (safe : Bool) : Hist :=
  let cols := if H0.rows.isEmpty then specCols else H0.cols ++ newCols H0.cols specCols
  let pre := H0.rows.mapIdx (fun i r => h0Row cols H0 i r)
  let pre := if L = 0 then pre.map (freshen cols) else pre
  let rows := pre ++ List.replicate L (freshRow cols)
  { cols := cols, rows := rows, index := H0.rows.length, growCount := 0, safeMode := safe,
    usingH0 := !H0.rows.isEmpty,
    simStartedCount := countFlag rows .simStarted,
    simEndedCount := countFlag rows .simEnded,
    genInformedCount := countFlag rows .genInformed,
    simStartedOffset := countFlag rows .simStarted,
    simEndedOffset := countFlag rows .simEnded,
    genInformedOffset := countFlag rows .genInformed,
    lastStarted := -1, lastEnded := -1 }

/-- `_append_new_fields` (history.py:111-117): new columns are added, filled with zeros; old columns are
copied.  Simplification: two columns of the same name with different dtypes are not modelled. -/
def appendNewFields (h : Hist) (cs : List (Field × Shape)) : Hist :=
  let nc := newCols h.cols cs
  { h with
    cols := h.cols ++ nc
    rows := h.rows.map fun r f => if f ∈ h.fields then r f else zeroRow nc f }

/-- history.py:128-129 and 220-221: extend only when some field is new. -/
def extendCols (h : Hist) (cs : List (Field × Shape)) : Hist :=
  if (newCols h.cols cs).isEmpty then h else appendNewFields h cs

/-- Write of one returned cell into `H[field][ind]` (history.py:135-147).
A scalar written into a vector cell is broadcast by numpy. -/
def writeCell (f : Field) (old new : Val) : Except HErr Val :=
  match new, old with
  | .s x, .s _ => .ok (.s x)
  | .s x, .v ys => .ok (.v (List.replicate ys.length x))
  | .v xs, .v ys =>
    if xs.length > ys.length then .error (.tooMany f)
    else if xs.length = 0 then .error (.noValues f)
    else .ok (.v (xs ++ ys.drop xs.length))
  | .v _, .s _ => .error (.shapeError f)

/-- Inner loop over the fields for one returned row (history.py:132-147). -/
def writeFields (safe : Bool) (src : Row) : List Field → Row → Row × Option HErr
  | [], r => (r, none)
  | f :: fs, r =>
    if safe && decide (f ∈ protectedFields) then (r, some (.protectedField f))
    else match writeCell f (r f) (src f) with
      | .error e => (r, some e)
      | .ok x => writeFields safe src fs (r.set f x)

/-- The fields of returned row `j` written into row `r` of `H` (history.py:127, 132-147);
`d = none` models `calc_out = None`. -/
def simRowWrite (safe : Bool) (d : Option Rec) (j : Nat) (r : Row) : Row × Option HErr :=
  match d with
  | none => (r, none)
  | some d =>
    if d.fields.isEmpty then (r, none)
    else match d.rows[j]? with
      | none => (r, some .indexError)
      | some src => writeFields safe src d.fields r

/-- Outer loop of `update_history_f` (history.py:131-151). -/
def simRows (t : Int) (d : Option Rec) : Nat → List Nat → Hist → Hist × Option HErr
  | _, [], h => (h, none)
  | j, ind :: inds, h =>
    match h.rows[ind]? with
    | none => (h, some .indexError)
    | some r =>
      match simRowWrite h.safeMode d j r with
      | (r', some e) => ({ h with rows := h.rows.set ind r' }, some e)
      | (r', none) =>
        simRows t d (j + 1) inds
          { h with
            rows := h.rows.set ind ((r'.set .simEnded (.s 1)).set .simEndedTime (.s t))
            simEndedCount := h.simEndedCount + 1 }

/-- history.py:153-158: advance `last_ended` over consecutive ended rows, `n` is the number of
iterations left in the `range`, `j` the loop variable. -/
def advanceEnded (rows : List Row) : Nat → Nat → Int → Int
  | 0, _, le => le
  | n + 1, j, le =>
    match rows[j]? with
    | none => le
    | some r => if r.flag .simEnded then advanceEnded rows n (j + 1) (le + 1) else le

def maxNat : List Nat → Nat
  | [] => 0
  | x :: xs => max x (maxNat xs)

/-- history.py:127-129: columns that a simulation return adds. -/
def preSim (h : Hist) : Option Rec → Hist
  | none => h
  | some d => extendCols h d.cols

/-- `update_history_f` (history.py:119-158). -/
def updateF (h : Hist) (inds : List Nat) (d : Option Rec) (t : Int) (kill : Bool) :
    Hist × Option HErr :=
  match simRows t d 0 inds (preSim h d) with
  | (h, some e) => (h, some e)
  | (h, none) =>
    if kill then
      if inds.isEmpty then (h, some .emptyMax)
      else
        let j := (h.lastEnded + 1).toNat
        ({ h with lastEnded := advanceEnded h.rows (maxNat inds + 1 - j) j h.lastEnded }, none)
    else (h, none)

/-- Apply `g` to each listed row (fancy-index assignment). -/
def updAll (g : Row → Row) (rows : List Row) (inds : List Nat) : List Row :=
  inds.foldl (fun rs i => rs.modify i g) rows

/-- `update_history_x_out` (history.py:160-181). -/
def updateXOut (h : Hist) (inds : List Nat) (w : Nat) (t : Int) (kill : Bool) :
    Hist × Option HErr :=
  if inds.any (fun i => decide (h.rows.length ≤ i)) then (h, some .indexError)
  else
    let h := { h with
      rows := updAll (fun r => ((r.set .simStarted (.s 1)).set .simStartedTime (.s t)).set
        .simWorker (.s w)) h.rows inds
      simStartedCount := h.simStartedCount + inds.length }
    if kill then
      if inds.isEmpty then (h, some .emptyMax)
      else ({ h with lastStarted := (maxNat inds : Int) }, none)
    else (h, none)

/-- `update_history_to_gen` (history.py:183-203).  Marking all rows when all have ended (line 189-190) and
marking the ended ones otherwise (192-194) are the same assignment; kept as two branches. -/
def updateToGen (h : Hist) (inds : List Nat) (t : Int) : Hist × Option HErr :=
  if inds.isEmpty then (h, none)
  else if inds.any (fun i => decide (h.rows.length ≤ i)) then (h, some .indexError)
  else
    let ended := inds.filter (fun i => ((h.rows[i]?).map (·.flag .simEnded)).getD false)
    let rows :=
      if ended.length = inds.length then updAll (·.set .genInformed (.s 1)) h.rows inds
      else if ended.length > 0 then updAll (·.set .genInformed (.s 1)) h.rows ended
      else h.rows
    ({ h with
        rows := updAll (·.set .genInformedTime (.s t)) rows inds
        genInformedCount := h.genInformedCount + inds.length }, none)

/-- `grow_H` (history.py:263-281). -/
def growH (h : Hist) (k : Nat) : Hist :=
  { h with rows := h.rows ++ List.replicate k (freshRow h.cols) }

/-- history.py:230-232 and 246-248. -/
def ensureRoom (h : Hist) (numNew : Nat) : Hist :=
  let rem := h.rows.length - h.index
  if numNew > rem then
    let g := max (numNew - rem) (2 * h.growCount)
    growH { h with growCount := g } g
  else h

/-- numpy index resolution for an array of length `n` (negative indices count from the end). -/
def resolve (n : Nat) (i : Int) : Option Nat :=
  if 0 ≤ i then (if i.toNat < n then some i.toNat else none)
  else if (-i).toNat ≤ n then some (n - (-i).toNat) else none

/-- The integer in a `sim_id` cell. -/
def Row.sid (r : Row) : Int := match r .simId with | .s x => x | .v _ => -1

/-- Column assignment `H[field][update_inds] = D[field]` (history.py:255), rows already resolved;
later duplicates win.  Simplification: numpy broadcasting of different shapes is reported as an
error instead. -/
def writeColumn (f : Field) (rows : List Row) (ps : List (Nat × Row)) : List Row :=
  ps.foldl (fun rs p => rs.modify p.1 (fun r => r.set f (p.2 f))) rows

/-- The loop over `D.dtype.names` (history.py:252-255). -/
def genColumns (safe : Bool) (ps : List (Nat × Row)) : List (Field × Shape) → List Row → List Row × Option HErr
  | [], rows => (rows, none)
  | c :: cs, rows =>
    if safe && decide (c.1 ∈ protectedFields) then (rows, some (.protectedField c.1))
    else if ps.all (fun p => decide (((rows[p.1]?).map
        (fun r => (r c.1).hasShape c.2)) = some true)) then
      genColumns safe ps cs (writeColumn c.1 rows ps)
    else (rows, some (.shapeError c.1))

/-- Stamp of the generator on rows that have not been stamped (history.py:257-260). -/
def stampRow (w : Nat) (ts t : Int) (r : Row) : Row :=
  ((r.set .genStartedTime (.s ts)).set .genEndedTime (.s t)).set .genWorker (.s w)

def maxInt : List Int → Int
  | [] => -1
  | [x] => x
  | x :: xs => max x (maxInt xs)

/-- Distinct elements of `xs` that are not in `ys` (`np.setdiff1d`). -/
def setdiff (xs ys : List Int) : List Int := (xs.eraseDups).filter (fun x => decide (x ∉ ys))

/-- Resolve all update indices; `none` models numpy's IndexError. -/
def resolveAll (n : Nat) (ids : List Int) : Option (List Nat) := ids.mapM (resolve n)

/-- history.py:252-261, common tail of `update_history_x_in`. -/
def genFinish (h : Hist) (w : Nat) (d : Rec) (ts t : Int) (inds : List Nat) (numNew : Nat) :
    Hist × Option HErr :=
  match genColumns h.safeMode (inds.zip d.rows) d.cols h.rows with
  | (rows, some e) => ({ h with rows := rows }, some e)
  | (rows, none) =>
    let first := inds.filter (fun i => decide ((rows[i]?).map (· .genEndedTime) = some (.s 0)))
    ({ h with rows := updAll (stampRow w ts t) rows first, index := h.index + numNew }, none)

/-- Range `[a, b]` of integers as `np.arange(a, b + 1)`. -/
def intRange (a b : Int) : List Int := (List.range (b + 1 - a).toNat).map (fun (k : Nat) => a + k)

/-- history.py:235: number the appended rows. -/
def numberRows (rows : List Row) (start n : Nat) : List Row :=
  (List.range' start n).foldl (fun rs i => rs.modify i (fun r => r.set .simId (.s i))) rows

/-- `update_history_x_in` (history.py:205-261). -/
def updateXIn (h : Hist) (w : Nat) (d : Rec) (ts t : Int) : Hist × Option HErr :=
  if d.rows.isEmpty then (h, none)
  else
    let h := extendCols h d.cols
    if .simId ∉ d.fields then
      let n := d.rows.length
      let h := ensureRoom h n
      let h := { h with rows := numberRows h.rows h.index n }
      genFinish h w d ts t (List.range' h.index n) n
    else
      let ids := d.rows.map (·.sid)
      if (intRange h.index (maxInt ids)).all (fun i => decide (i ∈ ids)) then
        let numNew := (setdiff ids (h.rows.map (·.sid))).length
        let h := ensureRoom h numNew
        match resolveAll h.rows.length ids with
        | none => (h, some .indexError)
        | some inds => genFinish h w d ts t inds numNew
      else (h, some .gap)

/-- `trim_H` (history.py:284-286): what the user and the allocation function see. -/
def trimH (h : Hist) : List Row := h.rows.take h.index

/-- The operations performed on a `History` object during a run.  `requestCancel` and `markKill` are the
writes done by allocation functions / the manager (manager.py:562-583, give_sim_work_first.py:50-51). -/
inductive Op
  | simReturn (rows : List Nat) (d : Option Rec) (t : Int) (kill : Bool)
  | giveSim (rows : List Nat) (w : Nat) (t : Int) (kill : Bool)
  | giveGen (rows : List Nat) (t : Int)
  | genReturn (w : Nat) (d : Rec) (ts t : Int)
  | requestCancel (rows : List Nat)
  | markKill (rows : List Nat)

def apply (h : Hist) : Op → Hist × Option HErr
  | .simReturn rows d t k => updateF h rows d t k
  | .giveSim rows w t k => updateXOut h rows w t k
  | .giveGen rows t => updateToGen h rows t
  | .genReturn w d ts t => updateXIn h w d ts t
  | .requestCancel rows => ({ h with rows := updAll (·.set .cancelRequested (.s 1)) h.rows rows }, none)
  | .markKill rows => ({ h with rows := updAll (·.set .killSent (.s 1)) h.rows rows }, none)

/-- A run of operations; the first exception ends it (the manager aborts). -/
def run (h : Hist) : List Op → Hist × Option HErr
  | [] => (h, none)
  | op :: ops =>
    match apply h op with
    | (h', some e) => (h', some e)
    | (h', none) => run h' ops

end Verif.History
