/-!
# Sampling a domain

`latin_hypercube_sample`, `lhs_sample` and `uniform_random_sample_obj_components` of gen_funcs/sampling.py.

Random numbers and permutations are inputs.  Numbers of [0, 1) are multiples of `1 / D` for a common `D`, so that coordinates in the unit cube are integers over
`k * D`, where `k` is the number of points.  Rounding is left out: in floating point a number just below the end of an interval may become the end.
-/

namespace Verif.Sampling

/-- `rand_pts[t, j]` over `k * D` (sampling.py:186-195): the t-th interval begins at `t / k` and has length `1 / k`. -/
def randPt (D : Int) (u : Nat → Nat → Int) (t j : Nat) : Int := u t j + t * D

/-- `lhs_sample` (sampling.py:184-201): `perm j` is what `stream.permutation(k)` gives in the j-th turn of the last loop.  The sample is given by columns. -/
def lhsColumn (D : Int) (u : Nat → Nat → Int) (perm : Nat → List Nat) (j : Nat) : List Int := (perm j).map (fun t => randPt D u t j)

/-- The j-th coordinates of `latin_hypercube_sample` (sampling.py:159-181) over `k * D`; bounds are integers in their unit. -/
def latinColumn (D : Int) (k : Nat) (u : Nat → Nat → Int) (perm : Nat → List Nat) (lb ub : Nat → Int) (j : Nat) : List Int :=
  (lhsColumn D u perm j).map (fun s => s * (ub j - lb j) + lb j * (k * D))

/-- A row of `uniform_random_sample_obj_components`; priorities are left out. -/
structure Row (X : Type) where
  x : X
  comp : Nat
  pt : Nat
deriving DecidableEq

/-- One call (sampling.py:108-133): `h` is the number of rows of the history it is given, `xs` are the points drawn.  `none`: division by zero. -/
def components {X : Type} (m h : Nat) (xs : List X) : Option (List (Row X)) :=
  if m = 0 ∧ xs ≠ [] then none
  else some (xs.zipIdx.flatMap fun p => (List.range m).map fun c => ⟨p.1, c, h / m + p.2⟩)

/-- Calls one after the other, each given the whole history, which had `h` rows before. -/
def calls {X : Type} (m : Nat) : Nat → List (List X) → Option (List (Row X))
  | _, [] => some []
  | h, xs :: rest => match components m h xs with
    | none => none
    | some rows => (calls m (h + rows.length) rest).map (rows ++ ·)

end Verif.Sampling
