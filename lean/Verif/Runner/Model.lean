import Verif.Worker.Model
import Verif.Arrays.Model
/-
The runners for generators with `suggest` and `ingest` (libensemble/utils/runners.py:116-208): `StandardGenRunner` and
`LibensembleGenRunner`.  A runner is a user function of the worker model: what it does next depends on what it has observed.

Simplifications: the number of an array in a message stands for the array (`Wire`); the objects given to `suggest` and
`ingest` are a state with arbitrary functions on it; `none` is an exception; `suggest_updates` (runners.py:197-201, whose
result is not used by the loop) and `persis_info` are left out.
-/
namespace Verif.Runner
open Verif.Worker

/-- What differs between the kinds of runners.  Arrays are the contents of messages; `none` is an exception.
`initSuggest`: `_get_initial_suggest` with the conversion of its result; `suggest`: `_get_points_updates`;
`initIngest`: `_convert_initial_ingest` (of `None` for a stop without data); `ingest`: `_convert_ingest`; `len`: `len(H_in)`. -/
structure Ops (σ : Type) where
  initSuggest : σ → Nat → Option (σ × Nat)
  suggest : σ → Nat → Option (σ × Nat)
  initIngest : σ → Option Body → Option σ
  ingest : σ → Body → Option σ
  finalize : σ → Option σ
  len : Body → Option Nat

/-- `initial_batch_size` and `batch_size` of the generator's specifications, `libE_info["batch_size"]` (alloc_support.py:283). -/
structure Sizes where
  initial : Option Nat := none
  batch : Option Nat := none
  libE : Nat := 0
deriving DecidableEq, Repr

/-- `a or b` of Python, `b` being evaluated only if needed. -/
def orNat (a : Option Nat) (b : Option Nat) : Option Nat :=
  match a with
  | none | some 0 => b
  | some n => some n

/-- runners.py:152, 191. -/
def Sizes.first (c : Sizes) : Option Nat := orNat c.initial (orNat c.batch (some c.libE))

/-- runners.py:143; `n`: `len(H_in)`. -/
def Sizes.next (c : Sizes) (n : Option Nat) : Option Nat := orNat c.batch n

/-- A call of a method of the generator. `first`: through `_convert_initial_ingest`, `_get_initial_suggest`. -/
inductive Call
  | ingest (b : Option Body) (first : Bool)
  | suggest (n x : Nat) (first : Bool)
  | finalize
deriving DecidableEq, Repr

/-- Where the runner is: about to send, waiting for the answer (`first`: to the initial batch), about to return, or at an
exception. -/
inductive Pt
  | send (x : Nat) (first : Bool)
  | wait (first : Bool)
  | ret (b : Option Body)
  | raised
deriving DecidableEq, Repr

/-- The generator, the place in the program, the calls made so far (newest first). -/
structure St (σ : Type) where
  gen : σ
  pt : Pt
  log : List Call := []

variable {σ : Type} (ops : Ops σ) (c : Sizes)

def St.fail (s : St σ) : St σ := { s with pt := .raised }

/-- `suggest` and what comes before the sending (runners.py:143-145, 170-175). -/
def St.ask (s : St σ) (first : Bool) (n : Option Nat) : St σ :=
  match n with
  | none => s.fail
  | some n =>
    match (if first then ops.initSuggest s.gen n else ops.suggest s.gen n) with
    | none => s.fail
    | some (g, x) => { gen := g, pt := .send x first, log := .suggest n x first :: s.log }

/-- The loop condition, with the rest of the loop or what comes after it (runners.py:142-143, 176-178). -/
def St.again (s : St σ) (t : Nat) (b : Option Body) : St σ :=
  if isStop t then
    match ops.finalize s.gen with
    | none => s.fail
    | some g => { gen := g, pt := .ret b, log := .finalize :: s.log }
  else s.ask ops false (c.next (b.bind ops.len))

/-- After the answer to the initial batch (runners.py:158-159). -/
def St.firstAnswer (s : St σ) (t : Nat) (b : Option Body) : St σ :=
  match ops.initIngest s.gen b with
  | none => s.fail
  | some g => St.again ops c { s with gen := g, log := .ingest b true :: s.log } t b

/-- After the answer to a later batch (runners.py:146-147). -/
def St.laterAnswer (s : St σ) (t : Nat) (b : Option Body) : St σ :=
  match b with
  | none => s.again ops c t none
  | some r =>
    match ops.ingest s.gen r with
    | none => s.fail
    | some g => St.again ops c { s with gen := g, log := .ingest (some r) false :: s.log } t (some r)

def St.answer (s : St σ) (first : Bool) (t : Nat) (b : Option Body) : St σ :=
  if first then s.firstAnswer ops c t b else s.laterAnswer ops c t b

/-- An observation. -/
def St.see (s : St σ) (x : Obs) : St σ :=
  match s.pt, x with
  | .send _ first, .sent => { s with pt := .wait first }
  | .wait first, .signal t _ => s.answer ops c first t none
  | .wait first, .input t _ b => s.answer ops c first t (some b)
  | _, _ => s.fail

/-- The beginning: `H0` (runners.py:166-167; without rows the worker passes an empty array, worker.py:343), then the initial
batch. -/
def start (g : σ) (rows : Option Body) : St σ :=
  let s : St σ := { gen := g, pt := .raised }
  match rows with
  | none => s.ask ops true c.first
  | some b =>
    match ops.len b with
    | none => s
    | some 0 => s.ask ops true c.first
    | some _ =>
      match ops.initIngest g (some b) with
      | none => s
      | some g => St.ask ops { gen := g, pt := .raised, log := [.ingest (some b) true] } true c.first

/-- The runner after the observations `h` (newest first). -/
def after (g : σ) (rows : Option Body) : List Obs → St σ
  | [] => start ops c g rows
  | x :: h => (after g rows h).see ops c x

def Pt.act : Pt → UAct
  | .send x _ => .send x
  | .wait _ => .recv true
  | .ret _ => .ret (.pairStatus 12)
  | .raised => .raise

/-- `_result` (runners.py:161-185) as a user function; `c o`: sizes for the order, `g n`: the generator at the `n`-th call. -/
def genF (c : Order → Sizes) (g : Nat → σ) : UserF := fun n o rows h =>
  if o.persistent then (after ops (c o) (g n) rows h).pt.act else .raise

/-! ### The two kinds -/

variable {F : Type} [DecidableEq F]

/-- Arrays in messages. -/
structure Wire (F : Type) where
  code : Arrays.Arr F → Nat
  arr : Nat → Arrays.Arr F

def Wire.read (W : Wire F) : Body → Option (Arrays.Arr F)
  | .data x => some (W.arr x)
  | _ => none

/-- A generator that follows the standard, with the attribute `variables_mapping`. -/
structure Gen (F : Type) (σ : Type) where
  suggest : σ → Nat → Option (σ × List (Arrays.Dict F))
  ingest : σ → List (Arrays.Dict F) → Option σ
  finalize : σ → Option σ
  mapping : Arrays.Mapping := []

/-- The entry `out` of the specifications after `list_dicts_to_np`: if there is one, the function appends the fields it adds
to this list (misc.py:108, 139-152); `None` is replaced by a new list each time (misc.py:136-137). -/
def outAfter (out : Option (List Arrays.Field)) (pts : List (Arrays.Dict F)) (m : Arrays.Mapping) : Option (List Arrays.Field) :=
  match out, pts with
  | some given, first :: _ =>
    let start := if given = [] then Arrays.plainFields m first else given
    some (start ++ (Arrays.added m first (start.map (·.name))).map Arrays.mappedField)
  | out, _ => out

/-- `StandardGenRunner` (runners.py:116-185); the state has the generator and the entry `out`. -/
def standard (C : Arrays.Conv F) (W : Wire F) (G : Gen F σ) : Ops (σ × Option (List Arrays.Field)) :=
  let ask : σ × Option (List Arrays.Field) → Nat → Option ((σ × Option (List Arrays.Field)) × Nat) := fun s n =>
    match G.suggest s.1 n with
    | none => none
    | some (g, pts) => (Arrays.toNp C pts (s.2.getD []) G.mapping).map (fun a => ((g, outAfter s.2 pts G.mapping), W.code a))
  let tell : Arrays.Mapping → σ × Option (List Arrays.Field) → Body → Option (σ × Option (List Arrays.Field)) := fun m s b =>
    match W.read b with
    | none => none
    | some a => match Arrays.toDicts C a m with
      | none => none
      | some ds => (G.ingest s.1 ds).map (·, s.2)
  { initSuggest := ask
    suggest := ask
    initIngest := fun s b => b.bind (tell G.mapping s)
    ingest := tell []
    finalize := fun s => (G.finalize s.1).map (·, s.2)
    len := fun b => (W.read b).map (·.rows.length) }

/-- A generator of libEnsemble: arrays in and out; `ingest_numpy` may be called with `None`. -/
structure NpGen (F : Type) (σ : Type) where
  suggest : σ → Nat → Option (σ × Arrays.Arr F)
  ingest : σ → Option (Arrays.Arr F) → Option σ
  finalize : σ → Option σ

/-- `LibensembleGenRunner` (runners.py:188-207). -/
def numpy (W : Wire F) (G : NpGen F σ) : Ops σ :=
  let ask : σ → Nat → Option (σ × Nat) := fun s n => (G.suggest s n).map (fun p => (p.1, W.code p.2))
  let tell : σ → Body → Option σ := fun s b => (W.read b).bind (fun a => G.ingest s (some a))
  { initSuggest := ask
    suggest := ask
    initIngest := fun s b => match b with
      | none => G.ingest s none
      | some b => tell s b
    ingest := tell
    finalize := G.finalize
    len := fun b => (W.read b).map (·.rows.length) }

end Verif.Runner
