import Verif.Worker.Model
/-
The persistent sampling generators (libensemble/gen_funcs/persistent_sampling.py,
libensemble/gen_funcs/persistent_sampling_var_resources.py, libensemble/gen_funcs/persistent_inverse_bayes.py).

A generator is a function from what it has observed so far (newest first, see `Verif.Worker.Obs`) to what it does next.  Where it is in
its program and the values of its variables are computed from the observations.

Simplifications: coordinates, random numbers and requests for resources are left out, apart from the corners drawn by
`persistent_uniform_final_update`, which are any function of the observations; function values are integers; the number of rows of
`calc_in` is that of `H_rows` in the order that comes with it (the manager sends the fields of these rows, manager.py:433-442); checks of the
parameters and printing are left out.
-/
namespace Verif.Gens
open Verif.Worker (Obs isStop UAct UserF Body Order)

/-- The arrays that generators send or return: new points; points with `sim_id` and `corner_id`; a request to cancel
(persistent_support.py:117-127); the last array of `persistent_uniform_final_update`: `sim_id`, `corner_id`, and sum and number of values,
whose quotient is `f_est`. -/
inductive Made
  | points (k : Nat)
  | numbered (ids corners : List Nat)
  | cancel (ids : List Nat)
  | final (rows : List (Nat × Nat × Int × Nat))
deriving DecidableEq, Repr

/-- What a generator does next. -/
inductive Act
  | send (m : Made)
  | recv (blocking : Bool)
  | ret (m : Option Made)
  | raise
deriving DecidableEq, Repr

abbrev Gen := List Obs → Act

/-- `tag` after the last observation; before the first message it is `None`. -/
def tagOf : List Obs → Option Nat
  | .input t _ _ :: _ | .signal t _ :: _ => some t
  | _ => none

/-- `tag not in [STOP_TAG, PERSIS_STOP]`, the condition of all loops. -/
def goesOn (h : List Obs) : Bool := match tagOf h with
  | some t => !isStop t
  | none => true

/-- `b` (persistent_sampling.py:60-61, 117-118, 159-160, 197-198, 267-268, and six times in persistent_sampling_var_resources.py): at first
`initial_batch_size`, then the length of the last array received. -/
def batch (b0 : Nat) : List Obs → Nat
  | [] => b0
  | .input _ o _ :: _ => o.rows.length
  | _ :: h => batch b0 h

/-- `persistent_uniform` (persistent_sampling.py:47-63), and with the same messages `uniform_sample`, `uniform_sample_with_var_gpus`,
`uniform_sample_with_procs_gpus`, `uniform_sample_with_var_priorities`, `uniform_sample_diff_simulations` and
`uniform_sample_with_sim_gen_resources` (persistent_sampling_var_resources.py:46-61, 79-102, 114-131, 140-166, 178-200, 212-248). -/
def uniform (b0 : Nat) : Gen
  | .sent :: _ => .recv true
  | .error :: _ => .raise
  | h => if goesOn h then .send (.points (batch b0 h)) else .ret none

/-- `uniform_nonblocking` (persistent_sampling.py:176-200). -/
def nonblocking (b0 : Nat) : Gen
  | .sent :: _ => .recv false
  | .nothing :: _ => .recv false
  | .error :: _ => .raise
  | h => if goesOn h then .send (.points (batch b0 h)) else .ret none

/-- `f_count` in `persistent_request_shutdown` (persistent_sampling.py:150, 161): grows by `b` after each receive, also after a signal. -/
def fCount (b0 : Nat) : List Obs → Nat
  | [] => 0
  | .input t o r :: h => fCount b0 h + batch b0 (.input t o r :: h)
  | .signal t b :: h => fCount b0 h + batch b0 (.signal t b :: h)
  | _ :: h => fCount b0 h

/-- `persistent_request_shutdown` (persistent_sampling.py:148-166). -/
def shutdown (b0 limit : Nat) : Gen
  | [] => .send (.points b0)
  | .sent :: _ => .recv true
  | .error :: _ => .raise
  | h => if limit ≤ fCount b0 h then .ret none else if goesOn h then .send (.points (batch b0 h)) else .ret none

/-- `batched_history_matching` (persistent_sampling.py:223-246) and `persistent_updater_after_likelihood`
(persistent_inverse_bayes.py:13-43;  `b = subbatch_size * num_subbatches`): every batch has the same size. -/
def batched (b : Nat) : Gen
  | .sent :: _ => .recv true
  | .error :: _ => .raise
  | h => if goesOn h then .send (.points b) else .ret none

/-! `persistent_uniform_with_cancellations` -/

/-- Where `persistent_uniform_with_cancellations` is: making points, waiting, requesting to cancel, at the end, failed. -/
inductive Pos
  | make | wait | request (t : Nat) | over | dead
deriving DecidableEq, Repr

/-- persistent_sampling.py:261-275: after a receive with an array there is a request, then the condition of the loop. -/
def posOf : List Obs → Pos
  | [] => .make
  | x :: h =>
    match posOf h, x with
    | .make, .sent => .wait
    | .wait, .input t _ _ => .request t
    | .wait, .signal t _ => if isStop t then .over else .make
    | .wait, .error => .dead
    | .request t, .sent => if isStop t then .over else .make
    | p, _ => p

/-- `cancel_from` before the last array received (persistent_sampling.py:256, 272). -/
def cancelFrom (b0 : Nat) : List Obs → Nat
  | [] => b0 / 2
  | .input .. :: h => cancelNext b0 h
  | _ :: h => cancelFrom b0 h
where
  /-- `cancel_from` after what was received. -/
  cancelNext (b0 : Nat) : List Obs → Nat
  | [] => b0 / 2
  | .input _ o _ :: h => cancelNext b0 h + o.rows.length
  | _ :: h => cancelNext b0 h

/-- `persistent_uniform_with_cancellations` (persistent_sampling.py:249-275). -/
def cancelling (b0 : Nat) : Gen := fun h =>
  match posOf h with
  | .make => .send (.points (batch b0 h))
  | .wait => .recv true
  | .request _ => .send (.cancel (List.range' (cancelFrom b0 h) (batch b0 h)))
  | .over => .ret none
  | .dead => .raise

/-! `persistent_uniform_final_update` -/

/-- `sent` (persistent_sampling.py:100, 114): the corners of all points sent; `pick`: the draw (line 110). -/
def corners (b0 : Nat) (pick : List Obs → Nat → List Nat) : List Obs → List Nat
  | [] => []
  | .sent :: h => corners b0 pick h ++ pick h (batch b0 h)
  | _ :: h => corners b0 pick h

/-- `next_id` (persistent_sampling.py:104, 107-108). -/
def nextId (b0 : Nat) : List Obs → Nat
  | [] => 0
  | .sent :: h => nextId b0 h + batch b0 h
  | _ :: h => nextId b0 h

/-- `running_total[c]` and `number_of_samples[c]` (persistent_sampling.py:98-99, 119-124); `vals`: `corner_id` and `f` of the rows of an
array.  Without values the total is `nan`, here 0 of 0. -/
def tally (vals : Body → List (Nat × Int)) (c : Nat) : List Obs → Int × Nat
  | [] => (0, 0)
  | .input _ _ r :: h => (vals r).foldl (fun a v => if v.1 = c then (a.1 + v.2, a.2 + 1) else a) (tally vals c h)
  | _ :: h => tally vals c h

/-- The array returned (persistent_sampling.py:128-133). -/
def lastArray (b0 : Nat) (pick : List Obs → Nat → List Nat) (vals : Body → List (Nat × Int)) (h : List Obs) : List (Nat × Nat × Int × Nat) :=
  (corners b0 pick h).zipIdx.map fun p => (p.2, p.1, tally vals p.1 h)

/-- `persistent_uniform_final_update` (persistent_sampling.py:76-135). -/
def finalUpdate (b0 : Nat) (pick : List Obs → Nat → List Nat) (vals : Body → List (Nat × Int)) : Gen
  | .sent :: _ => .recv true
  | .error :: _ => .raise
  | h => if goesOn h then .send (.numbered (List.range' (nextId b0 h) (batch b0 h)) (pick h (batch b0 h)))
    else .ret (some (.final (lastArray b0 pick vals h)))

/-! Generators as user functions of a worker -/

/-- Returned is array (or `None`), `persis_info` and `FINISHED_PERSISTENT_GEN_TAG`; `code`: the number by which the worker model knows an
array. -/
def Act.user (code : Made → Nat) : Act → UAct
  | .send m => .send (code m)
  | .recv b => .recv b
  | .ret _ => .ret (.triple 12)
  | .raise => .raise

/-- Persistent calls run the generator, all other calls `S`. -/
def asUser (code : Nat → List Obs → Made → Nat) (G : Gen) (S : UserF) : UserF := fun n o rows h =>
  if o.persistent then (G h).user (code n h) else S n o rows h

end Verif.Gens
