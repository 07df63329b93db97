import Verif.Sampling.Uniform
/-!
# Requests for resources

The rows of the generators of gen_funcs/persistent_sampling_var_resources.py: points, and the resources asked for.  When the generators send and stop is in
`Gens/Model.lean`; here the answers are given by their lengths.  Random numbers are as in `Sampling/Uniform.lean`.  The program that
`uniform_sample_with_sim_gen_resources` runs is left out; its rows are those of `uniform_sample_with_procs_gpus`.
-/
namespace Verif.Sampling.Uniform

/-- A row with requests. -/
structure Req where
  x : List Int
  rsets : Nat := 0
  procs : Nat := 0
  gpus : Nat := 0
  priority : Nat := 0
  gpuApp : Bool := false
deriving DecidableEq, Repr

/-- `rng.integers(1, m + 1, b)` at place `p`; raises if `m` is zero, unless nothing is drawn. -/
def integers (s : Stream) (m b p : Nat) : Option (List Nat) :=
  if m = 0 ∧ b ≠ 0 then none else some ((List.range b).map (fun i => 1 + s.pick (p + i) m))

/-- A batch of `uniform_sample` (persistent_sampling_var_resources.py:52-54). -/
def rsetsBatch (s : Stream) (d : Dom) (m b p : Nat) : Option (List Req × Nat) :=
  (integers s m b (p + b * d.n)).map (fun l =>
    (List.zipWith (fun x k => { x := x, rsets := k }) (points s d p b) l, p + b * d.n + b))

/-- The number of GPUs for a first coordinate over `D` (persistent_sampling_var_resources.py:87-90): the range is divided into `m` parts of equal
length. -/
def bucket (D lb ub : Int) (m : Nat) (c : Int) : Nat := ((c - lb * D) * m / ((ub - lb) * D)).toNat + 1

/-- A batch of `uniform_sample_with_var_gpus` (persistent_sampling_var_resources.py:86-94); raises if there is no first coordinate, and for
points if its range is empty (`int` of a NaN).  For `max_gpus = 0` the length is infinite (with a warning), and the number is 1. -/
def gpusBatch (s : Stream) (d : Dom) (m b p : Nat) : Option (List Req × Nat) :=
  if d.n = 0 ∨ (b ≠ 0 ∧ d.ub 0 = d.lb 0) then none
  else some ((points s d p b).map (fun x => { x := x, gpus := bucket s.D (d.lb 0) (d.ub 0) m (x.head?.getD 0) }), p + b * d.n)

/-- A batch of `uniform_sample_with_procs_gpus` (persistent_sampling_var_resources.py:120-124) and of `uniform_sample_with_sim_gen_resources`
(persistent_sampling_var_resources.py:220-221, 239-241). -/
def procsBatch (s : Stream) (d : Dom) (m b p : Nat) : Option (List Req × Nat) :=
  (integers s m b (p + b * d.n)).map (fun l =>
    (List.zipWith (fun x k => { x := x, procs := k, gpus := k }) (points s d p b) l, p + b * d.n + b))

/-- The first batch of `uniform_sample_with_var_priorities` (persistent_sampling_var_resources.py:144-147). -/
def firstBatch (s : Stream) (d : Dom) (b p : Nat) : List Req × Nat :=
  ((points s d p b).map (fun x => { x := x, rsets := 1, priority := 1 }), p + b * d.n)

/-- A later batch (persistent_sampling_var_resources.py:158-161). -/
def prioBatch (s : Stream) (d : Dom) (m b p : Nat) : Option (List Req × Nat) :=
  (integers s m b (p + b * d.n)).map (fun l =>
    (List.zipWith (fun x k => { x := x, rsets := k, priority := 10 * k }) (points s d p b) l, p + b * d.n + b))

/-- A row of `uniform_sample_diff_simulations` (persistent_sampling_var_resources.py:189-192); `gpu`: the simulation uses GPUs. -/
def diffReq (x : List Int) (k : Nat) (gpu : Bool) : Req :=
  { x := x, procs := k, gpus := if gpu then k else 0, gpuApp := gpu }

/-- A batch (persistent_sampling_var_resources.py:184-192); `rng.choice([True, False], b)` takes the first for the choice 0. -/
def diffBatch (s : Stream) (d : Dom) (m b p : Nat) : Option (List Req × Nat) :=
  (integers s m b (p + b * d.n)).map (fun l =>
    (List.zipWith (fun x k => diffReq x.1 k (s.pick (p + b * d.n + b + x.2) 2 == 0)) (points s d p b).zipIdx l, p + b * d.n + b + b))

/-- The loop (for instance persistent_sampling_var_resources.py:51-59): batches until the answer that stops it; an answer has rows, or no
length (`none`, the size stays).  The last answer, with the tag to stop, is not in the list.  `none`: the generator raises. -/
def rounds (batch : Nat → Nat → Option (List Req × Nat)) (b p : Nat) : List (Option Nat) → Option (List (List Req))
  | [] => (batch b p).map (fun o => [o.1])
  | a :: as => match batch b p with
    | none => none
    | some o => (rounds batch (a.getD b) o.2 as).map (o.1 :: ·)

/-- `uniform_sample_with_var_priorities` (persistent_sampling_var_resources.py:134-166): the first batch, then the loop, if the first answer does not stop it. -/
def prioRounds (s : Stream) (d : Dom) (m b p : Nat) : List (Option Nat) → Option (List (List Req))
  | [] => some [(firstBatch s d b p).1]
  | a :: as => (rounds (prioBatch s d m) (a.getD b) (firstBatch s d b p).2 as).map ((firstBatch s d b p).1 :: ·)

end Verif.Sampling.Uniform
