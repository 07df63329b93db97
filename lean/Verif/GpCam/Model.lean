/-!
# Choosing points by posterior variance (gpCAM)

The parts of gen_funcs/persistent_gpCAM.py and gen_classes/gpCAM.py that choose candidate points and that tell the surrogate results.  The Gaussian process is
any function.

Simplifications: lengths are integers in a common unit (floating-point numbers are multiples of one) and the halving of radii is exact; random numbers are
any sequence of lists; the mesh is any list of points with any distances.  In floating point the mean of two neighbouring numbers is one of them, so that after
some sixty rounds the radius may become the spacing of the mesh, which it never does here.
-/

namespace Verif.GpCam

variable {X : Type}

/-! ### The grid: points far apart -/

/-- `_is_point_far_enough` (persistent_gpCAM.py:129-134) for the radius `num / den`. -/
def farEnough (d : X → X → Int) (num den : Int) (p : X) (es : List X) : Bool := es.all fun e => !decide (d p e * den < num)

/-- `_find_eligible_points` (persistent_gpCAM.py:137-154) on the points in the order of `sorted_indices`; `es`: `eligible_points`. -/
def pick (d : X → X → Int) (num den : Int) (b : Nat) : List X → List X → List X
  | [], es => es
  | p :: ps, es =>
    if farEnough d num den p es then
      if es.length + 1 = b then es ++ [p] else pick d num den b ps (es ++ [p])
    else pick d num den b ps es

/-- `r_cand` in round `k`, times `2 ^ k` (persistent_gpCAM.py:257, 262-264; gpCAM.py:130, 135-137): first `r_high`, then the mean of the last radius and `r_low`. -/
def radius (low high : Int) : Nat → Int
  | 0 => high
  | k + 1 => radius low high k + low * 2 ^ k

/-- The points found in round `k`. -/
def round (d : X → X → Int) (low high : Int) (b : Nat) (ps : List X) (k : Nat) : List X := pick d (radius low high k) (2 ^ k) b ps []

/-- The loop `while len(x_new) < batch_size` (persistent_gpCAM.py:256-264, gpCAM.py:129-137); `none`: not yet over after `fuel` rounds. -/
def search (d : X → X → Int) (low high : Int) (b : Nat) (ps : List X) : Nat → Nat → List X → Option (List X)
  | fuel, k, x => if b ≤ x.length then some x else match fuel with
    | 0 => none
    | fuel + 1 => search d low high b ps fuel (k + 1) (round d low high b ps k)

/-! ### Without a grid -/

/-- `cand[np.argsort(var)[-b:]]`; `asc`: the result of `argsort`. -/
def last (cand : List X) (asc : List Nat) (b : Nat) : List X := (asc.drop (asc.length - b)).filterMap (cand[·]?)

/-- Candidates, their variances, and the number of random lists drawn. -/
structure State (X : Type) where
  cand : List X
  var : List Int
  calls : Nat

/-- New results: other candidates, and their variances (persistent_gpCAM.py:278-280, gpCAM.py:147-153). -/
def ingest (draw : Nat → List X) (V : X → Int) (s : State X) : State X :=
  { cand := draw s.calls, var := (draw s.calls).map V, calls := s.calls + 1 }

/-- The next batch of `persistent_gpCAM_covar` (persistent_gpCAM.py:250-252) and the state after it. -/
def nextFunc (draw : Nat → List X) (argsort : List Int → List Nat) (b : Nat) (s : State X) : List X × State X :=
  (last (draw s.calls) (argsort s.var) b, { s with cand := draw s.calls, calls := s.calls + 1 })

/-- The next batch of `GP_CAM_Covar.suggest_numpy` (gpCAM.py:125). -/
def nextClass (argsort : List Int → List Nat) (b : Nat) (s : State X) : List X := last s.cand (argsort s.var) b

/-! ### Telling results -/

variable {Y : Type}

/-- `np.delete(…, nan_indices, axis=0)`; `nan_indices` are positions in `ys` (persistent_gpCAM.py:273-275, gpCAM.py:84-86). -/
def delete {A : Type} (nan : Nat → Bool) (l : List A) : List A := (l.zipIdx.filter fun p => !nan p.2).map (·.1)

/-- What the surrogate is told: points and values by position.  `none`: arrays of different length. -/
def tell (nan : Y → Bool) (xs : List X) (ys : List Y) : Option (List (X × Y)) :=
  let isNan := fun i => ((ys[i]?).map nan).getD false
  let xs' := delete isNan xs
  let ys' := delete isNan ys
  if xs'.length = ys'.length then some (xs'.zip ys') else none

/-- An answer of the manager: rows with a point and a value. The function pairs the points it sent with the values received (persistent_gpCAM.py:272-276). -/
def tellFunc (nan : Y → Bool) (sent : List X) (answer : List (X × Y)) : Option (List (X × Y)) := tell nan sent (answer.map (·.2))

/-- The class takes the points from the answer if it has them (gpCAM.py:81-86). -/
def tellClass (nan : Y → Bool) (sent : List X) (hasX : Bool) (answer : List (X × Y)) : Option (List (X × Y)) :=
  tell nan (if hasX then answer.map (·.1) else sent) (answer.map (·.2))

end Verif.GpCam
